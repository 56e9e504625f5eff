import Verif.LU.Proportional
import Verif.LU.SetMatrix
import Verif.LU.Fast
import Mathlib.Algebra.Order.Ring.Rat
import Mathlib.Algebra.Order.BigOperators.Ring.Finset
import Mathlib.Tactic.IntervalCases
import Mathlib.Tactic.NormNum

/-! # Properties of the LU factorizer: C01 – C07 -/

namespace Verif.LU

open Verif.Res Finset Matrix

variable {K : Type} [Field K] [DecidableEq K]

set_option linter.unusedSectionVars false

/-! ### Bridges -/

theorem mulVec_iff {n : Nat} (A : Nat → Nat → K) (x b : Nat → K) :
    ((fun i j : Fin n => A i j : Matrix (Fin n) (Fin n) K) *ᵥ (fun i : Fin n => x i)
      = fun i : Fin n => b i)
      ↔ ∀ i, i < n → ∑ c ∈ range n, A i c * x c = b i := by
  constructor
  · intro h i hi
    have := congrFun h ⟨i, hi⟩
    simp only [Matrix.mulVec, dotProduct] at this
    rw [Finset.sum_range]; exact this
  · intro h
    funext i
    have := h i i.2
    rw [Finset.sum_range] at this
    simp only [Matrix.mulVec, dotProduct]
    exact this

theorem filled_env {n : Nat} {es : Entries K} (hS : Stencil n es) (hf : Filled es) :
    EFilled (stenOf hS) := by
  intro r c hrc hc hq
  have hc : c < n := hc
  have := (qOf_le (n := n) (es := es) (show r < n by omega)).1 hq
  exact (sOf_ge (by omega)).2 (hf r c hrc this)

theorem diag_env {n : Nat} {es : Entries K} (hS : Stencil n es) (hd : DiagReach n es) :
    EDiag (stenOf hS) := by
  intro i hi
  rcases Nat.eq_zero_or_pos i with rfl | h
  · exact Nat.zero_le _
  · exact (sOf_ge h).2 (hd i hi)

theorem minors_lu (es : Entries K) (n : Nat) :
    MinorsNonzero es n ↔ ∀ i, i < n → lu (entry es) i i ≠ 0 := minors_iff (entry es) n

/-- Everything about one `solve` call on an object that holds `A`. -/
theorem solve_holds {E : Sten} {A : Nat → Nat → K} {st : Fact K} (h : Holds E A st)
    (b : List K) (hb : E.n ≤ b.length) :
    Post (solve st b) (fun r => ∃ M, Rep E true M r.1 ∧ Zeros E M
        ∧ (∀ r c, r < E.n → c < E.n → A r c = ∑ k ∈ range E.n, lowerOf M r k * upperOf M k c)
        ∧ (st.factorized = false → ∀ r c, r < E.n → c < E.n → M r c = lu A r c)
        ∧ (∀ i, i < E.n → M i i ≠ 0)
        ∧ r.2 = (List.range b.length).map (fun i => if i < E.n then
            solX E M (fun i => b.getD i 0) i else b.getD i 0))
      (fun e => e = .divZero ∧ (st.factorized = false → ∃ i, i < E.n ∧ lu A i i = 0)) := by
  unfold solve
  refine Post.bind (h.factorize.mono (fun _ h => h) (fun e he => ⟨he.1.1, fun _ => he.1.2⟩)) ?_
  rintro st' ⟨M, hR, hz, hA, hM⟩
  have hsol := solve_post_factors hR hz (fun i => b.getD i 0) hb
  rw [← list_eq_map 0 b] at hsol
  have e : (forward st' b >>= fun x => backward st' x >>= fun x => (.ok (st', x) : Res _))
      = ((forward st' b >>= fun x => backward st' x) >>= fun x => .ok (st', x)) := by
    cases forward st' b <;> rfl
  rw [e]
  refine Post.bind (hsol.mono (fun _ h => h) (fun e he => ⟨he.1, ?_⟩)) ?_
  · intro hf
    obtain ⟨i, hi, h0⟩ := he.2
    exact ⟨i, hi, by rw [← hM hf i i hi hi]; exact h0⟩
  · rintro x ⟨h1, h2⟩
    exact ⟨M, hR, hz, hA, hM, h1, h2⟩

theorem getD_map_range {n i : Nat} {f : Nat → K} (h : i < n) :
    ((List.range n).map f).getD i 0 = f i := by
  simp [h]

/-- Any history leaves an object that holds some matrix with the same envelope. -/
theorem history_holds {n : Nat} {es : Entries K} (hS : Stencil n es) (hd : Distinct es)
    {st0 : Fact K} {ops : List (Op K)} (hl : ∀ o ∈ ops, o.Long n) {st : Fact K}
    (h : History st0 es ops st) : ∃ A, Holds (stenOf hS) A st := by
  obtain ⟨st1, h1, h2⟩ := h
  obtain ⟨st', e1, e2⟩ := setMatrix_rep hS hd st0
  rw [h1] at e1
  obtain rfl : st1 = st' := Except.ok.inj e1
  have h0 : ∃ A, Holds (stenOf hS) A st1 := ⟨_, .plain e2 (inEnv_entry hS)⟩
  clear e1 e2 h1
  induction ops generalizing st1 with
  | nil => cases h2; exact h0
  | cons o ops ih =>
    rw [List.foldlM_cons] at h2
    obtain ⟨A, hA⟩ := h0
    have hlo := hl o (by simp)
    cases hap : o.apply st1 with
    | error e => rw [hap] at h2; cases h2
    | ok st2 =>
      rw [hap] at h2
      refine ih (fun o' ho' => hl o' (by simp [ho'])) st2 h2 ?_
      cases o with
      | solve b =>
        have hp := solve_holds hA b hlo
        simp only [Op.apply] at hap
        cases hs : solve st1 b with
        | error e => rw [hs] at hap; cases hap
        | ok r =>
          rw [hs] at hap hp
          cases hap
          obtain ⟨M, hR, hz, hA', _⟩ := hp
          exact ⟨A, .factors M hR hz hA'⟩
      | hart s y =>
        simp only [Op.apply, secantUpdateHart] at hap
        have hf := hA.factorize
        cases hfa : factorize st1 with
        | error e => rw [hfa] at hap; cases hap
        | ok st3 =>
          rw [hfa] at hap hf
          obtain ⟨M, hR, hz, hA', _⟩ := hf
          have hh := hart_post (σ := fun i => s.getD i 0) (y := fun i => y.getD i 0)
            (ms := s.length) (my := y.length) hlo.1 hlo.2 hR hz (fun _ => True) (fun _ _ _ _ => trivial)
          rw [← list_eq_map 0 s, ← list_eq_map 0 y] at hh
          simp only [bind_ok] at hap
          cases hlp : loop 0 st3.p.length (hartRow s y) (st3, []) with
          | error e => rw [hlp] at hap; cases hap
          | ok r =>
            rw [hlp] at hap hh
            cases hap
            obtain ⟨M', ρ, hR', hz', _⟩ := hh.ex
            exact ⟨_, .factors M' hR' hz' (fun _ _ _ _ => rfl)⟩
      | prop s y =>
        simp only [Op.apply, secantUpdateProportional] at hap
        have hf := hA.factorize
        cases hfa : factorize st1 with
        | error e => rw [hfa] at hap; cases hap
        | ok st3 =>
          rw [hfa] at hap hf
          obtain ⟨M, hR, hz, hA', _⟩ := hf
          simp only [bind_ok] at hap
          rcases Nat.eq_zero_or_pos n with hn | hn
          · have hlen : st3.p.length = 0 := by rw [hR.toShape.len]; exact hn
            rw [hlen, loop_of_ge (le_refl _)] at hap
            cases hap
            exact ⟨_, .factors M hR hz (fun _ _ _ _ => rfl)⟩
          · have hh := prop_post (σ := fun i => s.getD i 0) (y := fun i => y.getD i 0)
              (ms := s.length) (my := y.length) hlo.1 hlo.2 (E := stenOf hS) hn hR hz
            rw [← list_eq_map 0 s, ← list_eq_map 0 y] at hh
            cases hlp : loop 0 st3.p.length (propRow s y) (st3, []) with
            | error e => rw [hlp] at hap; cases hap
            | ok r =>
              rw [hlp] at hap hh
              cases hap
              obtain ⟨M', hR', hz', _⟩ := hh
              exact ⟨_, .factors M' hR' hz' (fun _ _ _ _ => rfl)⟩

/-! ### C02: setMatrix -/

/-- C02: `setMatrix` returns exactly on square stencils whose envelope covers the diagonal;
otherwise it throws. -/
theorem C02_accept (st : Fact K) (es : Entries K) :
    ((∃ st', setMatrix st es = .ok st') ↔ ∃ n, Stencil n es)
    ∧ ((∃ n, Stencil n es) ∨ ∃ msg, setMatrix st es = .error (.exc msg)) := by
  have hrej := setMatrix_reject es st
  constructor
  · constructor
    · rintro ⟨st', h⟩
      rw [h] at hrej; exact hrej
    · rintro ⟨n, h⟩
      obtain ⟨st2, _, e, _⟩ := setMatrix_eq h st
      exact ⟨_, e⟩
  · cases h : setMatrix st es with
    | ok st' => rw [h] at hrej; exact .inl hrej
    | error e =>
      rw [h] at hrej
      obtain ⟨msg, rfl⟩ := hrej
      exact .inr ⟨msg, rfl⟩

/-- C02: after acceptance the object has the size of the matrix, is not factorized, and
represents exactly the given matrix. -/
theorem C02_readback (st : Fact K) (es : Entries K) {n : Nat} (hS : Stencil n es)
    (hd : Distinct es) :
    ∃ st', setMatrix st es = .ok st' ∧ st'.p.length = n ∧ st'.factorized = false
      ∧ Represents st' (matrixOf es n) := by
  obtain ⟨st', h1, h2⟩ := setMatrix_rep hS hd st
  exact ⟨st', h1, h2.toShape.len, h2.fact,
    fun i j => (Holds.plain h2 (inEnv_entry hS)).elementAt i.2 j.2⟩

/-- C02: the previous contents of the object do not matter. -/
theorem C02_fresh (st st1 : Fact K) (es : Entries K) : setMatrix st es = setMatrix st1 es :=
  setMatrix_fresh st st1 es

/-! ### C01: solve -/

/-- C01 (`_partial`: the fill condition `Filled` is an extra hypothesis; without it the claim
is false, see `C01_false`): `solve` overwrites the right-hand side with the solution. -/
theorem C01_solve_partial (st0 : Fact K) (es : Entries K) {n : Nat} (hS : Stencil n es)
    (hd : Distinct es) (hf : Filled es) (hm : MinorsNonzero es n) (b : List K)
    (hb : n ≤ b.length) :
    ∃ st st' x, setMatrix st0 es = .ok st ∧ solve st b = .ok (st', x)
      ∧ x.length = b.length ∧ matrixOf es n *ᵥ vec x n = vec b n
      ∧ ∀ i, n ≤ i → x[i]? = b[i]? := by
  obtain ⟨st, h1, h2⟩ := setMatrix_rep hS hd st0
  have hp := solve_holds (Holds.plain h2 (inEnv_entry hS)) b hb
  cases hs : solve st b with
  | error e =>
    rw [hs] at hp
    obtain ⟨i, hi, h0⟩ := hp.2 h2.fact
    exact absurd h0 ((minors_lu es n).1 hm i hi)
  | ok r =>
    obtain ⟨st', x⟩ := r
    rw [hs] at hp
    obtain ⟨M, hR, hz, hA, hM, hpiv, hx⟩ := hp
    simp only at hx hR
    refine ⟨st, st', x, h1, hs, by rw [hx]; simp, ?_, ?_⟩
    · have hn : (stenOf hS).n = n := rfl
      have key := (mulVec_iff (n := n) (entry es) (fun i => x.getD i 0) (fun i => b.getD i 0)).2 ?_
      · exact key
      · intro i hi
        have hsol := solX_solves (E := stenOf hS) hpiv (fun i => b.getD i 0) hi
        rw [← hsol]
        have e1 : ∑ c ∈ range n, entry es i c * x.getD c 0
            = ∑ c ∈ range n, (∑ k ∈ range n, lowerOf M i k * upperOf M k c)
                * solX (stenOf hS) M (fun i => b.getD i 0) c := by
          apply Finset.sum_congr rfl
          intro c hc
          have hc := mem_range.1 hc
          rw [hA i c hi hc, hx, getD_map_range (by omega),
            if_pos (show c < (stenOf hS).n from hc)]
          rfl
        rw [e1, sum_swap]
        apply Finset.sum_congr rfl
        intro k _
        congr 1
        apply Finset.sum_congr rfl
        intro c hc
        rw [truncU_eq (filled_env hS hf) hz (mem_range.1 hc)]
    · intro i hi
      rw [hx, List.getElem?_map]
      have : ¬ i < (stenOf hS).n := by have : (stenOf hS).n = n := rfl; omega
      by_cases hib : i < b.length
      · simp [hib, this]
      · simp [hib]

/-- C01: for every accepted matrix, `solve` returns iff all leading principal minors are
nonzero; otherwise it divides by zero. Nothing else can happen. -/
theorem C01_returns_iff (st0 : Fact K) (es : Entries K) {n : Nat} (hS : Stencil n es)
    (hd : Distinct es) (b : List K) (hb : n ≤ b.length) :
    ∃ st, setMatrix st0 es = .ok st
      ∧ ((∃ r, solve st b = .ok r) ↔ MinorsNonzero es n)
      ∧ (¬ MinorsNonzero es n → solve st b = .error .divZero) := by
  obtain ⟨st, h1, h2⟩ := setMatrix_rep hS hd st0
  have hp := solve_holds (Holds.plain h2 (inEnv_entry hS)) b hb
  refine ⟨st, h1, ?_⟩
  cases hs : solve st b with
  | error e =>
    rw [hs] at hp
    obtain ⟨i, hi, h0⟩ := hp.2 h2.fact
    have hnm : ¬ MinorsNonzero es n := fun hm => (minors_lu es n).1 hm i hi h0
    refine ⟨⟨?_, fun h => absurd h hnm⟩, fun _ => by rw [hp.1]⟩
    rintro ⟨r, hr⟩; cases hr
  | ok r =>
    rw [hs] at hp
    obtain ⟨M, _, _, _, hM, hpiv, _⟩ := hp
    have hm : MinorsNonzero es n := (minors_lu es n).2 (fun i hi => by
      rw [← hM h2.fact i i hi hi]; exact hpiv i hi)
    exact ⟨⟨fun _ => hm, fun _ => ⟨r, rfl⟩⟩, fun h => absurd hm h⟩

/-- C01, what `solve` computes for every accepted matrix: the solution of `L Ũ x = b`, where
`A = L U` is the triangular factorization and `Ũ` drops the elements of `U` right of the last
stored column of each row. -/
theorem C01_general (st0 : Fact K) (es : Entries K) {n : Nat} (hS : Stencil n es)
    (hd : Distinct es) (b : List K) (hb : n ≤ b.length) {st st' : Fact K} {x : List K}
    (h1 : setMatrix st0 es = .ok st) (h2 : solve st b = .ok (st', x)) :
    ∃ L U Ut : Matrix (Fin n) (Fin n) K,
      (∀ i j : Fin n, i < j → L i j = 0) ∧ (∀ i, L i i = 1)
      ∧ (∀ i j : Fin n, j < i → U i j = 0) ∧ L * U = matrixOf es n
      ∧ (∀ i j : Fin n, Ut i j = U i j ∨ Ut i j = 0)
      ∧ (∀ i j : Fin n, Ut i j ≠ U i j → ∀ c : Nat, j ≤ c → ¬ Key es i c)
      ∧ (∀ i j : Fin n, i < j → (∀ c : Nat, j ≤ c → ¬ Key es i c) → Ut i j = 0)
      ∧ L *ᵥ (Ut *ᵥ vec x n) = vec b n := by
  obtain ⟨st1, e1, e2⟩ := setMatrix_rep hS hd st0
  rw [h1] at e1
  obtain rfl : st = st1 := Except.ok.inj e1
  have hp := solve_holds (Holds.plain e2 (inEnv_entry hS)) b hb
  rw [h2] at hp
  obtain ⟨M, hR, hz, hA, hM, hpiv, hx⟩ := hp
  simp only at hx hR
  refine ⟨fun i j => lowerOf M i j, fun i j => upperOf M i j,
    fun i j => truncU (stenOf hS) M i j, ?_, ?_, ?_, ?_, ?_, ?_, ?_, ?_⟩
  · intro i j hij
    have : (i : Nat) < j := hij
    show lowerOf M i j = 0
    unfold lowerOf; rw [if_neg (by omega), if_neg (by omega)]
  · intro i; simp [lowerOf]
  · intro i j hij
    have : (j : Nat) < i := hij
    show upperOf M i j = 0
    unfold upperOf; rw [if_neg (by omega)]
  · ext i j
    refine Matrix.mul_apply.trans ?_
    have := hA i j i.2 j.2
    have hn : (stenOf hS).n = n := rfl
    rw [hn, Finset.sum_range] at this
    exact this.symm
  · intro i j
    simp only [truncU, upperOf, trunc]
    split
    · split
      · exact .inl rfl
      · exact .inr rfl
    · exact .inl rfl
  · intro i j hne c hjc hk
    apply hne
    simp only [truncU, upperOf, trunc]
    split
    · rename_i hle
      split
      · rfl
      · rename_i hn
        rw [not_or, not_and_or] at hn
        rcases Nat.lt_or_eq_of_le hle with hlt | heq
        · have hs : (j : Nat) ≤ (stenOf hS).s i := (sOf_ge (by omega)).2 ⟨c, hjc, hk⟩
          rw [hz.2 i j j.2 (by omega)]
        · omega
    · rfl
  · intro i j hij hno
    have hij : (i : Nat) < j := hij
    simp only [truncU, trunc]
    rw [if_pos hij.le, if_neg]
    rintro (h | ⟨h, _⟩)
    · omega
    · obtain ⟨c, h1, h2⟩ := (sOf_ge (es := es) (show 0 < (j : Nat) by omega)).1 h
      exact hno c h1 h2
  · have hn : (stenOf hS).n = n := rfl
    funext i
    have hsol := solX_solves (E := stenOf hS) hpiv (fun i => b.getD i 0) i.2
    rw [hn, Finset.sum_range] at hsol
    simp only [Matrix.mulVec, dotProduct, vec]
    rw [← hsol]
    apply Finset.sum_congr rfl
    intro k _
    congr 1
    rw [Finset.sum_range]
    apply Finset.sum_congr rfl
    intro c _
    congr 1
    rw [hx, getD_map_range (by omega), if_pos (show (c : Nat) < (stenOf hS).n from c.2)]

/-- C01: the solve result is also right after any history of earlier solves and secant updates,
for the matrix the object represents at that point, and that matrix is unchanged. -/
theorem C01_history_partial (st0 : Fact K) (es : Entries K) {n : Nat} (hS : Stencil n es)
    (hd : Distinct es) (hf : Filled es) (ops : List (Op K)) (hl : ∀ o ∈ ops, o.Long n)
    {st : Fact K} (h : History st0 es ops st) (b : List K) (hb : n ≤ b.length)
    {st' : Fact K} {x : List K} (hs : solve st b = .ok (st', x)) :
    ∃ A : Matrix (Fin n) (Fin n) K, Represents st A ∧ Represents st' A
      ∧ A *ᵥ vec x n = vec b n := by
  obtain ⟨A, hA⟩ := history_holds hS hd hl h
  have hp := solve_holds hA b hb
  rw [hs] at hp
  obtain ⟨M, hR, hz, hA', _, hpiv, hx⟩ := hp
  simp only at hR hx
  refine ⟨fun i j => A i j, fun i j => hA.elementAt i.2 j.2,
    fun i j => (Holds.factors M hR hz hA').elementAt i.2 j.2, ?_⟩
  have hn : (stenOf hS).n = n := rfl
  refine (mulVec_iff (n := n) A (fun i => x.getD i 0) (fun i => b.getD i 0)).2 ?_
  intro i hi
  have hsol := solX_solves (E := stenOf hS) hpiv (fun i => b.getD i 0) hi
  rw [← hsol]
  have e1 : ∑ c ∈ range n, A i c * x.getD c 0
      = ∑ c ∈ range n, (∑ k ∈ range n, lowerOf M i k * upperOf M k c)
          * solX (stenOf hS) M (fun i => b.getD i 0) c := by
    apply Finset.sum_congr rfl
    intro c hc
    have hc := mem_range.1 hc
    rw [hA' i c hi hc, hx, getD_map_range (by omega),
      if_pos (show c < (stenOf hS).n from hc)]
    rfl
  rw [e1, sum_swap]
  apply Finset.sum_congr rfl
  intro k _
  congr 1
  apply Finset.sum_congr rfl
  intro c hc
  rw [truncU_eq (filled_env hS hf) hz (mem_range.1 hc)]

/-! ### C03 -/

/-- C03: after any history, factorizing by `solve` does not change the represented matrix
(no fill condition needed). -/
theorem C03_solve_keeps (st0 : Fact K) (es : Entries K) {n : Nat} (hS : Stencil n es)
    (hd : Distinct es) (ops : List (Op K)) (hl : ∀ o ∈ ops, o.Long n)
    {st : Fact K} (h : History st0 es ops st) (b : List K) (hb : n ≤ b.length)
    {st' : Fact K} {x : List K} (hs : solve st b = .ok (st', x)) :
    st'.factorized = true
    ∧ ∀ r c, r < n → c < n → ∃ v, elementAt st r c = .ok v ∧ elementAt st' r c = .ok v := by
  obtain ⟨A, hA⟩ := history_holds hS hd hl h
  have hp := solve_holds hA b hb
  rw [hs] at hp
  obtain ⟨M, hR, hz, hA', _⟩ := hp
  exact ⟨hR.fact, fun r c hr hc => ⟨A r c, hA.elementAt hr hc,
    (Holds.factors M hR hz hA').elementAt hr hc⟩⟩

/-- C03: the same for the factorization step alone, for any matrix for which it returns. -/
theorem C03_factorize_keeps (st0 : Fact K) (es : Entries K) {n : Nat} (hS : Stencil n es)
    (hd : Distinct es) {st st' : Fact K} (h1 : setMatrix st0 es = .ok st)
    (h2 : factorize st = .ok st') : st'.factorized = true ∧ Represents st' (matrixOf es n) := by
  obtain ⟨st1, e1, e2⟩ := setMatrix_rep hS hd st0
  rw [h1] at e1
  obtain rfl : st = st1 := Except.ok.inj e1
  have hp := (Holds.plain e2 (inEnv_entry hS)).factorize
  rw [h2] at hp
  obtain ⟨M, hR, hz, hA', _⟩ := hp
  exact ⟨hR.fact, fun i j => (Holds.factors M hR hz hA').elementAt i.2 j.2⟩

/-! ### C04 -/

/-- C04: addresses of in-envelope positions below the diagonal are inside `m_l`, and different
positions have different addresses; the same for `m_u`. After any history. -/
theorem C04_addresses (st0 : Fact K) (es : Entries K) {n : Nat} (hS : Stencil n es)
    (hd : Distinct es) (ops : List (Op K)) (hl : ∀ o ∈ ops, o.Long n)
    {st : Fact K} (h : History st0 es ops st) :
    (∀ r c, r < n → c < r → (∃ c', c' ≤ c ∧ Key es r c') →
      ∃ a, adr st.al st.p r c = .ok a ∧ a < st.l.length)
    ∧ (∀ r c r' c', r < n → c < r → (∃ k, k ≤ c ∧ Key es r k) →
        r' < n → c' < r' → (∃ k, k ≤ c' ∧ Key es r' k) →
        adr st.al st.p r c = adr st.al st.p r' c' → r = r' ∧ c = c')
    ∧ (∀ r c, c < n → r ≤ c → (∃ r', r' ≤ r ∧ Key es r' c) →
      ∃ a, adr st.au st.q c r = .ok a ∧ a < st.u.length)
    ∧ (∀ r c r' c', c < n → r ≤ c → (∃ k, k ≤ r ∧ Key es k c) →
        c' < n → r' ≤ c' → (∃ k, k ≤ r' ∧ Key es k c') →
        adr st.au st.q c r = adr st.au st.q c' r' → r = r' ∧ c = c') := by
  obtain ⟨A, hA⟩ := history_holds hS hd hl h
  have hsh : Shape (stenOf hS) st := by
    cases hA with
    | plain hR _ => exact hR.toShape
    | factors _ hR _ _ => exact hR.toShape
  have hp : ∀ r c, r < n → c < r → (∃ k, k ≤ c ∧ Key es r k) → (stenOf hS).p r ≤ c :=
    fun r c hr hc hk => (pOf_le (show c < n by omega)).2 hk
  have hq : ∀ r c, c < n → r ≤ c → (∃ k, k ≤ r ∧ Key es k c) → (stenOf hS).q c ≤ r :=
    fun r c hc hr hk => (qOf_le (show r < n by omega)).2 hk
  refine ⟨?_, ?_, ?_, ?_⟩
  · intro r c hr hc hk
    exact ⟨_, hsh.adrL hr (hp r c hr hc hk), by
      rw [hsh.l]; exact cellL_lt (stenOf hS) hr hc (hp r c hr hc hk)⟩
  · intro r c r' c' hr hc hk hr' hc' hk' heq
    rw [hsh.adrL hr (hp r c hr hc hk), hsh.adrL hr' (hp r' c' hr' hc' hk')] at heq
    exact cell_inj (d := 0) (hp r c hr hc hk) (by omega) (hp r' c' hr' hc' hk') (by omega)
      ((stenOf hS).p_le r hr) ((stenOf hS).p_le r' hr') (Except.ok.inj heq)
  · intro r c hc hr hk
    exact ⟨_, hsh.adrU hc (hq r c hc hr hk), by
      rw [hsh.u]; exact cellU_lt (stenOf hS) hc hr (hq r c hc hr hk)⟩
  · intro r c r' c' hc hr hk hc' hr' hk' heq
    rw [hsh.adrU hc (hq r c hc hr hk), hsh.adrU hc' (hq r' c' hc' hr' hk')] at heq
    have := cell_inj (d := 1) (hq r c hc hr hk) (by omega) (hq r' c' hc' hr' hk') (by omega)
      ((stenOf hS).q_le c hc) ((stenOf hS).q_le c' hc') (Except.ok.inj heq)
    exact ⟨this.2, this.1⟩

/-- C04: no call after `setMatrix` ever accesses an array outside its bounds, provided the
arrays passed in are long enough. The only failures are division by zero and the documented
exception. -/
theorem C04_no_undefined_behaviour (st0 : Fact K) (es : Entries K) {n : Nat}
    (hS : Stencil n es) (hd : Distinct es) (ops : List (Op K)) (hl : ∀ o ∈ ops, o.Long n)
    {st : Fact K} (h : History st0 es ops st) (o : Op K) (ho : o.Long n) :
    o.apply st ≠ .error .ub := by
  obtain ⟨A, hA⟩ := history_holds hS hd hl h
  intro hub
  cases o with
  | solve b =>
    have hp := solve_holds hA b ho
    simp only [Op.apply] at hub
    cases hs : solve st b with
    | error e =>
      rw [hs] at hub hp
      cases hub
      exact absurd hp.1 (by simp)
    | ok r => rw [hs] at hub; cases hub
  | hart s y =>
    simp only [Op.apply, secantUpdateHart] at hub
    have hf := hA.factorize
    cases hfa : factorize st with
    | error e =>
      rw [hfa] at hub hf
      cases hub
      exact absurd hf.1.1 (by simp)
    | ok st3 =>
      rw [hfa] at hub hf
      obtain ⟨M, hR, hz, hA', _⟩ := hf
      have hh := hart_post (σ := fun i => s.getD i 0) (y := fun i => y.getD i 0)
        (ms := s.length) (my := y.length) ho.1 ho.2 hR hz (fun e => e = .divZero)
        (fun _ _ _ _ => rfl)
      rw [← list_eq_map 0 s, ← list_eq_map 0 y] at hh
      simp only [bind_ok] at hub
      cases hlp : loop 0 st3.p.length (hartRow s y) (st3, []) with
      | error e =>
        rw [hlp] at hub hh
        cases hub
        exact absurd hh (by simp)
      | ok r => rw [hlp] at hub; cases hub
  | prop s y =>
    simp only [Op.apply, secantUpdateProportional] at hub
    have hf := hA.factorize
    cases hfa : factorize st with
    | error e =>
      rw [hfa] at hub hf
      cases hub
      exact absurd hf.1.1 (by simp)
    | ok st3 =>
      rw [hfa] at hub hf
      obtain ⟨M, hR, hz, hA', _⟩ := hf
      simp only [bind_ok] at hub
      rcases Nat.eq_zero_or_pos n with hn | hn
      · have hlen : st3.p.length = 0 := by rw [hR.toShape.len]; exact hn
        rw [hlen, loop_of_ge (le_refl _)] at hub
        cases hub
      · have hh := prop_post (σ := fun i => s.getD i 0) (y := fun i => y.getD i 0)
          (ms := s.length) (my := y.length) ho.1 ho.2 (E := stenOf hS) hn hR hz
        rw [← list_eq_map 0 s, ← list_eq_map 0 y] at hh
        cases hlp : loop 0 st3.p.length (propRow s y) (st3, []) with
        | error e =>
          rw [hlp] at hub hh
          cases hub
          exact absurd hh (by simp)
        | ok r => rw [hlp] at hub; cases hub

/-! ### C06, C07: secant updates -/

/-- C06 (`_partial`: needs the fill condition and that every row reaches the diagonal from the
right; false otherwise, see `C06_false`): after any history the Hart update makes the
represented matrix map `s` to `y`, and the envelope is unchanged. -/
theorem C06_secant_partial (st0 : Fact K) (es : Entries K) {n : Nat} (hS : Stencil n es)
    (hd : Distinct es) (hf : Filled es) (hdr : DiagReach n es) (ops : List (Op K))
    (hl : ∀ o ∈ ops, o.Long n) {st : Fact K} (h : History st0 es ops st)
    (s y : List K) (hs : n ≤ s.length) (hy : n ≤ y.length) {st' : Fact K}
    (hu : secantUpdateHart st s y = .ok st') :
    st'.p = st.p ∧ st'.q = st.q ∧ st'.s = st.s
    ∧ ∃ A : Matrix (Fin n) (Fin n) K, Represents st' A ∧ A *ᵥ vec s n = vec y n := by
  obtain ⟨A, hA⟩ := history_holds hS hd hl h
  have hsh : Shape (stenOf hS) st := by
    cases hA with
    | plain hR _ => exact hR.toShape
    | factors _ hR _ _ => exact hR.toShape
  have hfz := hA.factorize
  unfold secantUpdateHart at hu
  cases hfa : factorize st with
  | error e => rw [hfa] at hu; cases hu
  | ok st3 =>
    rw [hfa] at hu hfz
    obtain ⟨M, hR, hz, hA', _⟩ := hfz
    have hh := hart_post (σ := fun i => s.getD i 0) (y := fun i => y.getD i 0)
      (ms := s.length) (my := y.length) hs hy hR hz (fun _ => True) (fun _ _ _ _ => trivial)
    rw [← list_eq_map 0 s, ← list_eq_map 0 y] at hh
    simp only [bind_ok] at hu
    cases hlp : loop 0 st3.p.length (hartRow s y) (st3, []) with
    | error e => rw [hlp] at hu; cases hu
    | ok r =>
      rw [hlp] at hu hh
      cases hu
      obtain ⟨M', ρ, hR', hz', _, hρ, hsec⟩ := hh.ex
      refine ⟨by rw [hR'.p, hsh.p], by rw [hR'.q, hsh.q], by rw [hR'.s, hsh.s], ?_⟩
      refine ⟨fun i j => ∑ k ∈ range n, lowerOf M' i k * upperOf M' k j,
        fun i j => (Holds.factors M' hR' hz' (fun _ _ _ _ => rfl)).elementAt i.2 j.2, ?_⟩
      refine (mulVec_iff (n := n) (fun i j => ∑ k ∈ range n, lowerOf M' i k * upperOf M' k j)
        (fun i => s.getD i 0) (fun i => y.getD i 0)).2 ?_
      intro i hi
      exact hart_secant (filled_env hS hf) (diag_env hS hdr) hz' hρ hsec hi

/-- C06: the update of a factorized object returns whenever no component of `s` is zero
(in an ordered field the denominators are then positive). -/
theorem C06_returns {K : Type} [Field K] [LinearOrder K] [IsStrictOrderedRing K]
    (st0 : Fact K) (es : Entries K) {n : Nat} (hS : Stencil n es)
    (hd : Distinct es) (hdr : DiagReach n es) (ops : List (Op K))
    (hl : ∀ o ∈ ops, o.Long n) {st : Fact K} (h : History st0 es ops st)
    (hfz : st.factorized = true) (s y : List K) (hs : n ≤ s.length) (hy : n ≤ y.length)
    (hs0 : ∀ i, i < n → s[i]? ≠ some 0) :
    ∃ st', secantUpdateHart st s y = .ok st' := by
  obtain ⟨A, hA⟩ := history_holds hS hd hl h
  have hp : Post (secantUpdateHart st s y) (fun _ => True) (fun _ => False) := by
    unfold secantUpdateHart
    refine Post.bind (hA.factorize.mono (fun _ h => h) (fun e he => by
      rw [hfz] at he; exact absurd he.2 (by simp))) ?_
    rintro st3 ⟨M, hR, hz, hA', _⟩
    have hh := hart_post (σ := fun i => s.getD i 0) (y := fun i => y.getD i 0)
      (ms := s.length) (my := y.length) hs hy hR hz (fun _ => False) ?_
    · rw [← list_eq_map 0 s, ← list_eq_map 0 y] at hh
      exact Post.bind hh (fun _ _ => trivial)
    · intro ρ i hi haa
      have hi' : i < n := hi
      unfold hAA at haa
      have h1 : 0 ≤ ∑ k ∈ Ico ((stenOf hS).p i) i, ρ k * ρ k :=
        Finset.sum_nonneg (fun k _ => mul_self_nonneg _)
      have h2 : 0 < ∑ k ∈ Ico i (stenOf hS).n,
          onPat (stenOf hS) i (fun k => s.getD k 0 * s.getD k 0) k := by
        apply Finset.sum_pos' (fun k _ => by
          unfold onPat; split
          · exact mul_self_nonneg _
          · exact le_refl _)
        refine ⟨i, Finset.mem_Ico.2 ⟨le_refl _, hi⟩, ?_⟩
        unfold onPat
        rw [if_pos ⟨diag_env hS hdr i hi, (stenOf hS).q_le i hi⟩]
        apply mul_self_pos.2
        have := hs0 i hi'
        rw [List.getD_eq_getElem?_getD]
        rw [List.getElem?_eq_getElem (by omega)] at this ⊢
        simpa using this
      linarith
  obtain ⟨st', h1, _⟩ := post_false_iff.1 hp
  exact ⟨st', h1⟩

/-- C07, what holds instead: when the proportional update returns, the first row of the
represented matrix applied to `s` is the old value plus `y 0`. Hence (with a filled stencil)
the secant condition is violated whenever `y 0 ≠ 0`. -/
theorem C07_first_row_partial (st0 : Fact K) (es : Entries K) {n : Nat} (hS : Stencil n es)
    (hd : Distinct es) (hf : Filled es) (hdr : DiagReach n es) (ops : List (Op K))
    (hl : ∀ o ∈ ops, o.Long n) {st : Fact K} (h : History st0 es ops st)
    (s y : List K) (hs : n ≤ s.length) (hy : n ≤ y.length) {st' : Fact K}
    (hu : secantUpdateProportional st s y = .ok st') (hn : 0 < n) :
    ∃ A A' : Matrix (Fin n) (Fin n) K, Represents st A ∧ Represents st' A'
      ∧ (A' *ᵥ vec s n) ⟨0, hn⟩ = (A *ᵥ vec s n) ⟨0, hn⟩ + vec y n ⟨0, hn⟩
      ∧ (vec y n ⟨0, hn⟩ ≠ 0 → A' *ᵥ vec s n ≠ vec y n) := by
  obtain ⟨A, hA⟩ := history_holds hS hd hl h
  have hfz := hA.factorize
  unfold secantUpdateProportional at hu
  cases hfa : factorize st with
  | error e => rw [hfa] at hu; cases hu
  | ok st3 =>
    rw [hfa] at hu hfz
    obtain ⟨M, hR, hz, hA', _⟩ := hfz
    have hh := prop_post (σ := fun i => s.getD i 0) (y := fun i => y.getD i 0)
      (ms := s.length) (my := y.length) hs hy (E := stenOf hS) hn hR hz
    rw [← list_eq_map 0 s, ← list_eq_map 0 y] at hh
    simp only [bind_ok] at hu
    cases hlp : loop 0 st3.p.length (propRow s y) (st3, []) with
    | error e => rw [hlp] at hu; cases hu
    | ok r =>
      rw [hlp] at hu hh
      cases hu
      obtain ⟨M', hR', hz', hrow, hne⟩ := hh
      -- row 0 of the product, for factors vanishing outside the envelope
      have hrow0 : ∀ N : Nat → Nat → K, Zeros (stenOf hS) N →
          ∑ c ∈ range n, (∑ k ∈ range n, lowerOf N 0 k * upperOf N k c) * s.getD c 0
            = rowU (stenOf hS) N (fun i => s.getD i 0) 0 := by
        intro N hN
        rw [sum_swap, lower_sum hn]
        simp only [range_zero, sum_empty, zero_add]
        unfold rowU
        rw [Finset.range_eq_Ico]
        apply Finset.sum_congr rfl
        intro c hc
        have hc := (mem_Ico.1 hc).2
        simp only [upperOf, Nat.zero_le, if_true, onPat]
        split
        · rfl
        · rename_i hpt
          rw [hN.2 0 c hc, zero_mul]
          by_contra hq
          rw [not_lt] at hq
          rcases Nat.eq_zero_or_pos c with rfl | hcp
          · exact hpt ⟨diag_env hS hdr 0 hn, hq⟩
          · exact hpt ⟨filled_env hS hf 0 c hcp hc hq, hq⟩
      have hmul : ∀ B : Nat → Nat → K, ((fun i j => B i j : Matrix (Fin n) (Fin n) K)
          *ᵥ vec s n) ⟨0, hn⟩ = ∑ c ∈ range n, B 0 c * s.getD c 0 := by
        intro B
        simp only [Matrix.mulVec, dotProduct, vec]
        rw [Finset.sum_range]
      have e0 : ((fun i j => A i j : Matrix (Fin n) (Fin n) K) *ᵥ vec s n) ⟨0, hn⟩
          = rowU (stenOf hS) M (fun i => s.getD i 0) 0 := by
        rw [hmul, ← hrow0 M hz]
        apply Finset.sum_congr rfl
        intro c hc
        rw [hA' 0 c hn (mem_range.1 hc)]
        rfl
      have e1 : ((fun i j => ∑ k ∈ range n, lowerOf M' i k * upperOf M' k j
          : Matrix (Fin n) (Fin n) K) *ᵥ vec s n) ⟨0, hn⟩
          = rowU (stenOf hS) M' (fun i => s.getD i 0) 0 := by
        rw [hmul (fun i j => ∑ k ∈ range n, lowerOf M' i k * upperOf M' k j), ← hrow0 M' hz']
      refine ⟨fun i j => A i j, fun i j => ∑ k ∈ range n, lowerOf M' i k * upperOf M' k j,
        fun i j => hA.elementAt i.2 j.2,
        fun i j => (Holds.factors M' hR' hz' (fun _ _ _ _ => rfl)).elementAt i.2 j.2, ?_, ?_⟩
      · rw [e0, e1, hrow]; rfl
      · intro hy0 hcon
        have := congrFun hcon ⟨0, hn⟩
        rw [e1, hrow] at this
        have h2 := hne hy0
        apply h2
        have h3 : vec y n ⟨0, hn⟩ = y.getD 0 0 := rfl
        rw [h3] at this
        exact left_eq_add.1 (by rw [add_comm] at this; exact this.symm)


/-! ### C05: setMatrixFast -/

theorem Holds.shape {E : Sten} {A : Nat → Nat → K} {st : Fact K} (h : Holds E A st) :
    Shape E st := by
  cases h with
  | plain hR _ => exact hR.toShape
  | factors _ hR _ _ => exact hR.toShape

theorem Holds.rep {E : Sten} {A : Nat → Nat → K} {st : Fact K} (h : Holds E A st) :
    ∃ f M, Rep E f M st := by
  cases h with
  | plain hR _ => exact ⟨_, _, hR⟩
  | factors _ hR _ _ => exact ⟨_, _, hR⟩

theorem Holds.env {E : Sten} {A : Nat → Nat → K} {st : Fact K} (h : Holds E A st) {r c : Nat}
    (hr : r < E.n) (hc : c < E.n) (hne : A r c ≠ 0) : Env E r c := by
  by_contra henv
  apply hne
  cases h with
  | plain hR hA =>
    rcases Nat.lt_or_ge c r with h1 | h1
    · rw [hA.1 r c hr h1 (by omega)]
    · rw [hA.2 r c hc h1 (by omega)]
  | factors M hR hz hA => rw [hA r c hr hc, prod_outside hz hr hc henv]

/-- `setMatrixFast` on an object with the same envelope -/
theorem fast_same_stencil {es : Entries K} {n : Nat} (hS : Stencil n es) {A : Nat → Nat → K}
    {st : Fact K} (hA : Holds (stenOf hS) A st) (es' : Entries K) (hd' : Distinct es')
    (hk : ∀ r c, Key es' r c ↔ Key es r c) :
    setMatrixFast st es' = setMatrix st es' := by
  obtain ⟨f, M, hR⟩ := hA.rep
  rcases setMatrixFast_eq hR es' hd' (fun r c h => hS.inside r c ((hk r c).1 h))
    with ⟨st', h1, h2, h3⟩ | ⟨h1, _⟩
  · have hS' : Stencil n es' := ⟨fun r c h => hS.inside r c ((hk r c).1 h),
      fun i hi => (hS.row i hi).imp (fun c h => ⟨h.1, (hk i c).2 h.2⟩),
      fun i hi => (hS.col i hi).imp (fun c h => ⟨h.1, (hk c i).2 h.2⟩)⟩
    obtain ⟨st2, e1, e2⟩ := setMatrix_rep hS' hd' st
    rw [h1, e1]
    congr 1
    refine Rep.unique h3 ?_
    have hp : ∀ r, r < n → pOf n es r = pOf n es' r := by
      intro r hr
      apply Nat.le_antisymm
      · have := (stenOf hS').p_le r hr
        rw [pOf_le (show pOf n es' r < n from lt_of_le_of_lt this hr)]
        obtain ⟨c, hc, hkc⟩ := (pOf_le (show pOf n es' r < n from lt_of_le_of_lt this hr)).1
          (le_refl (pOf n es' r))
        exact ⟨c, hc, (hk r c).1 hkc⟩
      · have := (stenOf hS).p_le r hr
        rw [pOf_le (show pOf n es r < n from lt_of_le_of_lt this hr)]
        obtain ⟨c, hc, hkc⟩ := (pOf_le (show pOf n es r < n from lt_of_le_of_lt this hr)).1
          (le_refl (pOf n es r))
        exact ⟨c, hc, (hk r c).2 hkc⟩
    have hq : ∀ c, c < n → qOf n es c = qOf n es' c := by
      intro c hc
      apply Nat.le_antisymm
      · have := (stenOf hS').q_le c hc
        rw [qOf_le (show qOf n es' c < n from lt_of_le_of_lt this hc)]
        obtain ⟨r, hr, hkc⟩ := (qOf_le (show qOf n es' c < n from lt_of_le_of_lt this hc)).1
          (le_refl (qOf n es' c))
        exact ⟨r, hr, (hk r c).1 hkc⟩
      · have := (stenOf hS).q_le c hc
        rw [qOf_le (show qOf n es c < n from lt_of_le_of_lt this hc)]
        obtain ⟨r, hr, hkc⟩ := (qOf_le (show qOf n es c < n from lt_of_le_of_lt this hc)).1
          (le_refl (qOf n es c))
        exact ⟨r, hr, (hk r c).2 hkc⟩
    have hs : ∀ r, sOf es r = sOf es' r := by
      intro r
      apply Nat.le_antisymm
      · rcases Nat.eq_zero_or_pos (sOf es r) with h0 | h0
        · omega
        · obtain ⟨c, hc, hkc⟩ := (sOf_ge h0).1 (le_refl (sOf es r))
          exact (sOf_ge h0).2 ⟨c, hc, (hk r c).2 hkc⟩
      · rcases Nat.eq_zero_or_pos (sOf es' r) with h0 | h0
        · omega
        · obtain ⟨c, hc, hkc⟩ := (sOf_ge h0).1 (le_refl (sOf es' r))
          exact (sOf_ge h0).2 ⟨c, hc, (hk r c).1 hkc⟩
    have ha : ∀ (d : Nat) (P Q : Nat → Nat), (∀ i, i < n → P i = Q i) → ∀ j, j ≤ n →
        aOf d P j = aOf d Q j := by
      intro d P Q hPQ j hj
      unfold aOf
      apply Finset.sum_congr rfl
      intro i hi
      rw [hPQ i (by have := mem_range.1 hi; omega)]
    have hpe : ∀ j, j ≤ n → aOf 0 (stenOf hS).p j = aOf 0 (stenOf hS').p j :=
      ha 0 _ _ hp
    have hqe : ∀ j, j ≤ n → aOf 1 (stenOf hS).q j = aOf 1 (stenOf hS').q j :=
      ha 1 _ _ hq
    have hp' : ∀ r, r < n → (stenOf hS).p r = (stenOf hS').p r := hp
    have hq' : ∀ r, r < n → (stenOf hS).q r = (stenOf hS').q r := hq
    have hn : (stenOf hS).n = n := rfl
    have hn' : (stenOf hS').n = n := rfl
    refine ⟨⟨?_, ?_, ?_, ?_, ?_, ?_, ?_⟩, e2.fact, ?_, ?_⟩
    · rw [e2.p]; exact (List.map_congr_left (fun i hi => hp i (List.mem_range.1 hi))).symm
    · rw [e2.q]; exact (List.map_congr_left (fun i hi => hq i (List.mem_range.1 hi))).symm
    · rw [e2.s]; exact (List.map_congr_left (fun i _ => hs i)).symm
    · rw [e2.al]
      exact (List.map_congr_left (fun i hi => hpe i (Nat.le_of_lt_succ (List.mem_range.1 hi)))).symm
    · rw [e2.au]
      exact (List.map_congr_left (fun i hi => hqe i (Nat.le_of_lt_succ (List.mem_range.1 hi)))).symm
    · rw [e2.l]; exact (hpe n (le_refl _)).symm
    · rw [e2.u]; exact (hqe n (le_refl _)).symm
    · intro r c hr hc hpc
      have hr : r < n := hr
      rw [hpe r hr.le, hp' r hr]
      exact e2.L r c hr hc (by rw [← hp' r hr]; exact hpc)
    · intro r c hc hr hqc
      have hc : c < n := hc
      rw [hqe c hc.le, hq' c hc]
      exact e2.U r c hc hr (by rw [← hq' c hc]; exact hqc)
  · exact h1

/-- C05 (`_partial`: same stencil only): if the new matrix has the same stencil as the held
one, the object after `setMatrixFast` is identical to the object after `setMatrix`. -/
theorem C05_same_stencil_partial (st0 : Fact K) (es : Entries K) {n : Nat} (hS : Stencil n es)
    (hd : Distinct es) (ops : List (Op K)) (hl : ∀ o ∈ ops, o.Long n)
    {st : Fact K} (h : History st0 es ops st) (es' : Entries K) (hd' : Distinct es')
    (hk : ∀ r c, Key es' r c ↔ Key es r c) :
    setMatrixFast st es' = setMatrix st es' := by
  obtain ⟨A, hA⟩ := history_holds hS hd hl h
  exact fast_same_stencil hS hA es' hd' hk

/-- C05 (`_partial`): for any new stencil inside the index range, `setMatrixFast` either does
the same as `setMatrix`, or keeps the old envelope, represents the new matrix, and (when the
old stencil satisfies the fill condition) `solve` solves the new system. -/
theorem C05_solve_partial (st0 : Fact K) (es : Entries K) {n : Nat} (hS : Stencil n es)
    (hd : Distinct es) (ops : List (Op K)) (hl : ∀ o ∈ ops, o.Long n)
    {st : Fact K} (h : History st0 es ops st) (es' : Entries K) (hd' : Distinct es')
    (hin : ∀ r c, Key es' r c → r < n ∧ c < n) :
    setMatrixFast st es' = setMatrix st es' ∨
    ∃ st', setMatrixFast st es' = .ok st' ∧ Represents st' (matrixOf es' n)
      ∧ (Filled es → ∀ b st'' x, n ≤ b.length → solve st' b = .ok (st'', x) →
          matrixOf es' n *ᵥ vec x n = vec b n)
      ∧ (∀ b : List K, n ≤ b.length → ((∃ r, solve st' b = .ok r) ↔ MinorsNonzero es' n)) := by
  obtain ⟨A, hA⟩ := history_holds hS hd hl h
  obtain ⟨f, M0, hR⟩ := hA.rep
  rcases setMatrixFast_eq hR es' hd' hin with ⟨st', h1, h2, h3⟩ | ⟨h1, _⟩
  · refine .inr ⟨st', h1, ?_⟩
    have hH : Holds (stenOf hS) (entry es') st' := by
      refine .plain h3 ⟨?_, ?_⟩
      · intro r c hr hcr hlt
        apply entry_of_not_key
        intro hk
        have := (h2 r c hk).2.2.1 hcr
        omega
      · intro r c hc hrc hlt
        apply entry_of_not_key
        intro hk
        have := (h2 r c hk).2.2.2 hrc
        omega
    refine ⟨fun i j => hH.elementAt i.2 j.2, ?_, ?_⟩
    · intro hf b st'' x hb hs
      have hp := solve_holds hH b hb
      rw [hs] at hp
      obtain ⟨M, _, hz, hA', _, hpiv, hx⟩ := hp
      refine (mulVec_iff (n := n) (entry es') (fun i => x.getD i 0) (fun i => b.getD i 0)).2 ?_
      intro i hi
      have hsol := solX_solves (E := stenOf hS) hpiv (fun i => b.getD i 0) hi
      simp only at hx
      rw [← hsol]
      have e1 : ∑ c ∈ range n, entry es' i c * x.getD c 0
          = ∑ c ∈ range n, (∑ k ∈ range n, lowerOf M i k * upperOf M k c)
              * solX (stenOf hS) M (fun i => b.getD i 0) c := by
        apply Finset.sum_congr rfl
        intro c hc
        have hc := mem_range.1 hc
        rw [hA' i c hi hc, hx, getD_map_range (by omega),
          if_pos (show c < (stenOf hS).n from hc)]
        rfl
      rw [e1, sum_swap]
      apply Finset.sum_congr rfl
      intro k _
      congr 1
      apply Finset.sum_congr rfl
      intro c hc
      rw [truncU_eq (filled_env hS hf) hz (mem_range.1 hc)]
    · intro b hb
      have hp := solve_holds hH b hb
      cases hs : solve st' b with
      | error e =>
        rw [hs] at hp
        obtain ⟨i, hi, h0⟩ := hp.2 h3.fact
        refine ⟨?_, fun hm => absurd h0 ((minors_lu es' n).1 hm i hi)⟩
        rintro ⟨r, hr⟩; cases hr
      | ok r =>
        rw [hs] at hp
        obtain ⟨M, _, _, _, hM, hpiv, _⟩ := hp
        exact ⟨fun _ => (minors_lu es' n).2 (fun i hi => by
          rw [← hM h3.fact i i hi hi]; exact hpiv i hi), fun _ => ⟨r, rfl⟩⟩
  · exact .inl h1

/-! ### C61, C62 -/

/-- C61 (`_partial`: only for the non-square rejection; false for the others, see `C61_false`):
a rejected `setMatrix` leaves the object as it was. -/
theorem C61_nonsquare_partial (st : Fact K) (es : Entries K)
    (h : ∀ n, ¬ ((∀ r c, Key es r c → r < n) ∧ (∀ r c, Key es r c → c < n)
      ∧ (n ≠ 0 → (∃ c, Key es (n - 1) c) ∧ ∃ r, Key es r (n - 1)))) :
    (setMatrixFull st es).state = st ∧ (setMatrixFull st es).fault ≠ none := by
  have hne : (extents es).1 ≠ (extents es).2 := by
    intro heq
    apply h (extents es).1
    refine ⟨(extents_fst_le es _).1 (le_refl _), (extents_snd_le es _).1 heq.ge, ?_⟩
    intro hn
    constructor
    · by_contra hno
      have : (extents es).1 ≤ (extents es).1 - 1 := by
        rw [extents_fst_le]
        intro r c hk
        have h1 := (extents_fst_le es _).1 (le_refl _) r c hk
        have : r ≠ (extents es).1 - 1 := fun h => hno ⟨c, h ▸ hk⟩
        omega
      omega
    · by_contra hno
      have : (extents es).2 ≤ (extents es).1 - 1 := by
        rw [extents_snd_le]
        intro r c hk
        have h1 := (extents_snd_le es _).1 heq.ge r c hk
        have : c ≠ (extents es).1 - 1 := fun h => hno ⟨r, h ▸ hk⟩
        omega
      omega
  unfold setMatrixFull
  simp only
  rw [if_pos hne]
  exact ⟨rfl, by simp⟩

/-- C62: for an object holding the matrix given to `setMatrix` (factorized or not, after any
number of solves), `luToMatrix` returns that matrix: every position holds the element, no
position is written twice, no zero is stored. -/
theorem C62_luToMatrix (st0 : Fact K) (es : Entries K) {n : Nat} (hS : Stencil n es)
    (hd : Distinct es) (bs : List (List K)) (hl : ∀ b ∈ bs, n ≤ b.length) {st : Fact K}
    (h : History st0 es (bs.map Op.solve) st) :
    ∃ out, luToMatrix st = .ok out ∧ Distinct out ∧ matrixOf out n = matrixOf es n
      ∧ (∀ r c v, ((r, c), v) ∈ out → r < n ∧ c < n ∧ v ≠ 0) := by
  -- solves keep the matrix
  have hH : Holds (stenOf hS) (entry es) st := by
    obtain ⟨st1, h1, h2⟩ := h
    obtain ⟨st', e1, e2⟩ := setMatrix_rep hS hd st0
    rw [h1] at e1
    obtain rfl : st1 = st' := Except.ok.inj e1
    have h0 : Holds (stenOf hS) (entry es) st1 := .plain e2 (inEnv_entry hS)
    clear e1 e2 h1
    induction bs generalizing st1 with
    | nil => cases h2; exact h0
    | cons b bs ih =>
      rw [List.map_cons, List.foldlM_cons] at h2
      cases hap : (Op.solve b).apply st1 with
      | error e => rw [hap] at h2; cases h2
      | ok st2 =>
        rw [hap] at h2
        refine ih (fun o' ho' => hl o' (by simp [ho'])) st2 h2 ?_
        have hp := solve_holds h0 b (hl b (by simp))
        simp only [Op.apply] at hap
        cases hs : solve st1 b with
        | error e => rw [hs] at hap; cases hap
        | ok r =>
          rw [hs] at hap hp
          cases hap
          obtain ⟨M, hR, hz, hA', _⟩ := hp
          exact .factors M hR hz hA'
  obtain ⟨out, e1, e2, e3⟩ := luToMatrix_eq hH hH.shape
  refine ⟨out, e1, e2, ?_, ?_⟩
  · funext i j
    show entry out i j = entry es i j
    by_cases hk : Key out i j
    · obtain ⟨v, hv⟩ := hk
      rw [entry_of_mem out e2 hv, ((e3 i j v).1 hv).2.2.2.1]
    · rw [entry_of_not_key out hk]
      by_contra hne
      have hke : Key es i j := by
        by_contra hno
        exact hne (entry_of_not_key es hno).symm
      apply hk
      refine ⟨entry es i j, (e3 i j _).2 ⟨i.2, (pOf_le j.2).2 ⟨j, le_refl _, hke⟩, ?_, rfl,
        fun h => hne h.symm⟩⟩
      rcases Nat.eq_zero_or_pos (j : Nat) with h0 | h0
      · omega
      · exact (sOf_ge h0).2 ⟨j, le_refl _, hke⟩
  · intro r c v hv
    obtain ⟨h1, _, h3, _, h5⟩ := (e3 r c v).1 hv
    exact ⟨h1, lt_of_le_of_lt h3 ((stenOf hS).s_lt r h1), h5⟩

/-- C62 (`_partial`: with the fill condition): also after secant updates `luToMatrix` returns
the represented matrix. -/
theorem C62_history_partial (st0 : Fact K) (es : Entries K) {n : Nat} (hS : Stencil n es)
    (hd : Distinct es) (hf : Filled es) (hdr : DiagReach n es) (ops : List (Op K))
    (hl : ∀ o ∈ ops, o.Long n) {st : Fact K} (h : History st0 es ops st) :
    ∃ out, luToMatrix st = .ok out ∧ Represents st (matrixOf out n) := by
  obtain ⟨A, hA⟩ := history_holds hS hd hl h
  obtain ⟨out, e1, e2, e3⟩ := luToMatrix_eq hA hA.shape
  refine ⟨out, e1, ?_⟩
  intro i j
  rw [hA.elementAt i.2 j.2]
  congr 1
  show A i j = entry out i j
  by_cases hk : Key out i j
  · obtain ⟨v, hv⟩ := hk
    rw [entry_of_mem out e2 hv, ((e3 i j v).1 hv).2.2.2.1]
  · rw [entry_of_not_key out hk]
    by_contra hne
    apply hk
    have hi : (i : Nat) < n := i.2
    have hj : (j : Nat) < n := j.2
    have henv := hA.env (E := stenOf hS) hi hj hne
    have hpi := (stenOf hS).p_le i hi
    have hdi := diag_env hS hdr i hi
    refine ⟨A i j, (e3 i j _).2 ⟨i.2, ?_, ?_, rfl, hne⟩⟩
    · omega
    · rcases henv with ⟨h1, h2⟩ | ⟨h1, h2⟩
      · omega
      · rcases Nat.lt_or_eq_of_le h1 with h3 | h3
        · exact filled_env hS hf i j h3 hj h2
        · omega

/-! ### Concrete cases: the hypotheses are satisfiable, and the unrestricted claims fail -/

/-- Object before the first `setMatrix`. -/
abbrev new : Fact ℚ := Fact.empty

/-- Decidable form of `Key`. -/
theorem key_iff {es : Entries ℚ} {r c : Nat} : Key es r c ↔ (r, c) ∈ es.map Prod.fst := by
  simp [Key]

theorem stencil_of {n : Nat} {es : Entries ℚ}
    (h : (∀ k ∈ es.map Prod.fst, k.1 < n ∧ k.2 < n)
      ∧ (∀ i, i < n → ∃ c, c ≤ i ∧ (i, c) ∈ es.map Prod.fst)
      ∧ (∀ i, i < n → ∃ r, r ≤ i ∧ (r, i) ∈ es.map Prod.fst)) : Stencil n es :=
  ⟨fun r c hk => h.1 _ (key_iff.1 hk), fun i hi => by simpa only [key_iff] using h.2.1 i hi,
    fun i hi => by simpa only [key_iff] using h.2.2 i hi⟩

/-- A tridiagonal 3 × 3 matrix. -/
def tri : Entries ℚ :=
  [((0, 0), 2), ((0, 1), -1), ((1, 0), -1), ((1, 1), 2), ((1, 2), -1), ((2, 1), -1), ((2, 2), 2)]

theorem tri_stencil : Stencil 3 tri := by
  refine stencil_of ⟨by decide, ?_, ?_⟩
  · intro i hi; interval_cases i
    exacts [⟨0, by decide⟩, ⟨0, by decide⟩, ⟨1, by decide⟩]
  · intro i hi; interval_cases i
    exacts [⟨0, by decide⟩, ⟨0, by decide⟩, ⟨1, by decide⟩]

theorem tri_distinct : Distinct tri := by unfold Distinct; decide

theorem tri_filled : Filled tri := by
  intro r c hrc ⟨r', h1, h2⟩
  have hin := tri_stencil.inside _ _ h2
  simp only [key_iff] at h2 ⊢
  have hc : c < 3 := hin.2
  interval_cases c
  · omega
  · interval_cases r
    exact ⟨1, by decide⟩
  · interval_cases r
    · interval_cases r'
      exact absurd h2 (by decide)
    · exact ⟨2, by decide⟩

theorem tri_diag : DiagReach 3 tri := by
  intro i hi
  simp only [key_iff]
  interval_cases i
  exacts [⟨0, by decide⟩, ⟨1, by decide⟩, ⟨2, by decide⟩]

theorem tri_solve : ∃ st, setMatrix new tri = .ok st ∧ ∃ r, solve st [1, 0, 1] = .ok r := by
  cases h : setMatrix new tri with
  | error e =>
    have : (setMatrix new tri).isOk = true := by decide +kernel
    rw [h] at this; cases this
  | ok st =>
    refine ⟨st, rfl, ?_⟩
    have : ((setMatrix new tri).bind (fun st => solve st [1, 0, 1])).isOk = true := by
      decide +kernel
    rw [h] at this
    simp only [Except.bind] at this
    cases h2 : solve st [1, 0, 1] with
    | error e => rw [h2] at this; cases this
    | ok r => exact ⟨r, rfl⟩

theorem tri_minors : MinorsNonzero tri 3 := by
  obtain ⟨st, h1, h2, _⟩ := C01_returns_iff new tri tri_stencil tri_distinct [1, 0, 1] (by decide)
  obtain ⟨st', h3, h4⟩ := tri_solve
  rw [h1] at h3
  obtain rfl : st = st' := Except.ok.inj h3
  exact h2.1 h4

/-- The hypotheses of `C01_solve_partial` are met by `tri`. -/
example : ∃ st st' x, setMatrix new tri = .ok st ∧ solve st [1, 0, 1, 7] = .ok (st', x)
    ∧ x.length = 4 ∧ matrixOf tri 3 *ᵥ vec x 3 = vec [1, 0, 1, 7] 3
    ∧ ∀ i, 3 ≤ i → x[i]? = [1, 0, 1, 7][i]? :=
  C01_solve_partial new tri tri_stencil tri_distinct tri_filled tri_minors [1, 0, 1, 7] (by decide)

/-- A history with a solve, a Hart update and another solve, which all return. -/
def triOps : List (Op ℚ) := [.solve [1, 0, 1], .hart [1, 2, 1] [3, 1, 1], .solve [1, 2, 3]]

theorem triOps_long : ∀ o ∈ triOps, o.Long 3 := by
  intro o ho
  simp only [triOps, List.mem_cons, List.not_mem_nil, or_false] at ho
  rcases ho with rfl | rfl | rfl <;> simp [Op.Long]

theorem tri_history : ∃ st, History new tri triOps st
    ∧ (∃ r, secantUpdateHart st [1, 1, 2] [1, 2, 5] = .ok r)
    ∧ (∃ r, solve st [4, 5, 6] = .ok r) := by
  have h : ((setMatrix new tri).bind (fun st => triOps.foldlM Op.apply st)).isOk = true
      ∧ ((setMatrix new tri).bind (fun st => (triOps.foldlM Op.apply st : Res _).bind
        (fun st => secantUpdateHart st [1, 1, 2] [1, 2, 5]))).isOk = true
      ∧ ((setMatrix new tri).bind (fun st => (triOps.foldlM Op.apply st : Res _).bind
        (fun st => solve st [4, 5, 6]))).isOk = true := by
    decide +kernel
  cases h1 : setMatrix new tri with
  | error e => rw [h1] at h; exact absurd h.1 (by simp [Except.bind, Except.isOk, Except.toBool])
  | ok st1 =>
    rw [h1] at h
    simp only [Except.bind] at h
    cases h2 : (triOps.foldlM Op.apply st1 : Res _) with
    | error e => rw [h2] at h; exact absurd h.1 (by simp [Except.isOk, Except.toBool])
    | ok st =>
      rw [h2] at h
      simp only at h
      refine ⟨st, ⟨st1, h1, h2⟩, ?_, ?_⟩
      · cases h3 : secantUpdateHart st [1, 1, 2] [1, 2, 5] with
        | error e => rw [h3] at h; exact absurd h.2.1 (by simp [Except.isOk, Except.toBool])
        | ok r => exact ⟨r, rfl⟩
      · cases h3 : solve st [4, 5, 6] with
        | error e => rw [h3] at h; exact absurd h.2.2 (by simp [Except.isOk, Except.toBool])
        | ok r => exact ⟨r, rfl⟩

/-- The hypotheses of `C06_secant_partial` are met after that history. -/
example : ∃ (st st' : Fact ℚ) (A : Matrix (Fin 3) (Fin 3) ℚ), History new tri triOps st
    ∧ secantUpdateHart st [1, 1, 2] [1, 2, 5] = .ok st' ∧ Represents st' A
    ∧ A *ᵥ vec [1, 1, 2] 3 = vec [1, 2, 5] 3 := by
  obtain ⟨st, h1, ⟨st', h2⟩, _⟩ := tri_history
  obtain ⟨_, _, _, A, h3, h4⟩ := C06_secant_partial new tri tri_stencil tri_distinct tri_filled
    tri_diag triOps triOps_long h1 [1, 1, 2] [1, 2, 5] (by decide) (by decide) h2
  exact ⟨st, st', A, h1, h2, h3, h4⟩

/-- A matrix with fill-in right of the last stored column of row 1. -/
def fillin : Entries ℚ :=
  [((0, 0), 1), ((0, 2), 1), ((1, 0), 1), ((1, 1), 1), ((2, 2), 1)]

theorem fillin_stencil : Stencil 3 fillin := by
  refine stencil_of ⟨by decide, ?_, ?_⟩
  · intro i hi; interval_cases i
    exacts [⟨0, by decide⟩, ⟨0, by decide⟩, ⟨2, by decide⟩]
  · intro i hi; interval_cases i
    exacts [⟨0, by decide⟩, ⟨1, by decide⟩, ⟨0, by decide⟩]

theorem fillin_distinct : Distinct fillin := by unfold Distinct; decide

/-- If a computation returns a value satisfying a test, it is `ok` of such a value. -/
theorem ok_of_test {α : Type} {r : Res α} {p : α → Bool}
    (h : (match r with | .ok a => p a | .error _ => false) = true) : ∃ a, r = .ok a ∧ p a = true := by
  cases r with
  | error e => cases h
  | ok a => exact ⟨a, rfl, h⟩

/-- C01 without the fill condition is false: all leading minors are nonzero, `solve` returns,
but not the solution. -/
theorem C01_false : ∃ (es : Entries ℚ) (b : List ℚ) (st st' : Fact ℚ) (x : List ℚ),
    Stencil 3 es ∧ Distinct es ∧ MinorsNonzero es 3 ∧ b.length = 3 ∧ setMatrix new es = .ok st
    ∧ solve st b = .ok (st', x) ∧ matrixOf es 3 *ᵥ vec x 3 ≠ vec b 3 := by
  obtain ⟨st1, e1, e2, _⟩ := C01_returns_iff new fillin fillin_stencil fillin_distinct [0, 0, 1]
    (by decide)
  cases hs : solve st1 [0, 0, 1] with
  | error e =>
    have h1 : ((setMatrix new fillin).bind (fun st => solve st [0, 0, 1])).isOk = true := by
      decide +kernel
    rw [e1] at h1
    simp only [Except.bind, hs] at h1
    cases h1
  | ok r =>
    have hr : ((setMatrix new fillin).bind (fun st => solve st [0, 0, 1])).map
        (fun r => r.2.getD 0 0 + r.2.getD 1 0) = .ok (-1 + 0) := by decide +kernel
    rw [e1] at hr
    simp only [Except.bind, hs, Except.map] at hr
    refine ⟨fillin, [0, 0, 1], st1, r.1, r.2, fillin_stencil, fillin_distinct, e2.1 ⟨r, hs⟩, rfl,
      e1, hs, ?_⟩
    intro hcon
    have h3 := congrFun hcon 1
    simp [Matrix.mulVec, dotProduct, Fin.sum_univ_three, matrixOf, vec, entry, fillin] at h3
    have hr := Except.ok.inj hr
    simp only [List.getD_eq_getElem?_getD] at hr
    rw [hr] at h3
    norm_num at h3

/-- C05 is false: `setMatrixFast` followed by `solve` and `setMatrix` followed by `solve` give
different results for a new entry inside the old envelope but right of the last old column. -/
theorem C05_false : ∃ (es es' : Entries ℚ) (b : List ℚ) (st st1 st2 : Fact ℚ)
    (r1 r2 : Fact ℚ × List ℚ),
    (∀ r c, Key es' r c → r < 3 ∧ c < 3)
    ∧ setMatrix new es = .ok st ∧ setMatrixFast st es' = .ok st1 ∧ setMatrix st es' = .ok st2
    ∧ solve st1 b = .ok r1 ∧ solve st2 b = .ok r2 ∧ r1.2 ≠ r2.2 := by
  let es : Entries ℚ := [((0, 0), 1), ((0, 2), 1), ((1, 1), 1), ((2, 2), 1)]
  let es' : Entries ℚ := [((0, 0), 1), ((0, 2), 1), ((1, 1), 1), ((1, 2), 1), ((2, 2), 1)]
  obtain ⟨st, h1, h2⟩ := ok_of_test (r := setMatrix new es) (p := fun st =>
    match setMatrixFast st es', setMatrix st es' with
    | .ok st1, .ok st2 => match solve st1 [0, 1, 1], solve st2 [0, 1, 1] with
      | .ok r1, .ok r2 => r1.2 != r2.2
      | _, _ => false
    | _, _ => false) (by decide +kernel)
  split at h2
  · rename_i st1 st2 e1 e2
    split at h2
    · rename_i r1 r2 e3 e4
      refine ⟨es, es', [0, 1, 1], st, st1, st2, r1, r2, ?_, h1, e1, e2, e3, e4, by simpa using h2⟩
      intro r c hk
      have : ∀ k ∈ es'.map Prod.fst, k.1 < 3 ∧ k.2 < 3 := by decide
      exact this _ (key_iff.1 hk)
    · cases h2
  · cases h2

/-- The hypotheses of the C05 theorems are met: same stencil, other values. -/
example : ∃ st, setMatrix new tri = .ok st ∧
    setMatrixFast st (tri.map (fun e => (e.1, 2 * e.2 + 1)))
      = setMatrix st (tri.map (fun e => (e.1, 2 * e.2 + 1))) := by
  obtain ⟨st, h, _⟩ := tri_solve
  refine ⟨st, h, C05_same_stencil_partial new tri tri_stencil tri_distinct [] (by simp)
    ⟨st, h, rfl⟩ _ (by unfold Distinct; decide) ?_⟩
  intro r c
  simp only [key_iff, List.map_map]
  rfl

/-- C06 without the fill condition is false: the update returns but the secant condition does
not hold for the represented matrix. -/
theorem C06_false : ∃ (es : Entries ℚ) (s y : List ℚ) (st st' : Fact ℚ),
    Stencil 3 es ∧ Distinct es ∧ DiagReach 3 es ∧ setMatrix new es = .ok st
    ∧ secantUpdateHart st s y = .ok st'
    ∧ ∀ A : Matrix (Fin 3) (Fin 3) ℚ, Represents st' A → A *ᵥ vec s 3 ≠ vec y 3 := by
  obtain ⟨st, h1, h2⟩ := ok_of_test (r := setMatrix new fillin) (p := fun st =>
    match secantUpdateHart st [1, 1, 1] [1, 2, 3] with
    | .ok st' => match elementAt st' 1 0, elementAt st' 1 1, elementAt st' 1 2 with
      | .ok a, .ok b, .ok c => a + b + c != 2
      | _, _, _ => false
    | _ => false) (by decide +kernel)
  split at h2
  · rename_i st' e1
    refine ⟨fillin, [1, 1, 1], [1, 2, 3], st, st', fillin_stencil, fillin_distinct, ?_, h1, e1, ?_⟩
    · intro i hi
      simp only [key_iff]
      interval_cases i
      exacts [⟨0, by decide⟩, ⟨1, by decide⟩, ⟨2, by decide⟩]
    · intro A hA hcon
      have e0 := hA 1 0
      have e1 := hA 1 1
      have e2 := hA 1 2
      simp only [Fin.isValue, Fin.val_zero, Fin.val_one, Fin.val_two] at e0 e1 e2
      rw [e0, e1, e2] at h2
      have h3 := congrFun hcon 1
      simp [Matrix.mulVec, dotProduct, Fin.sum_univ_three, vec] at h3
      simp [h3] at h2
  · cases h2

/-- C07 is false: the update returns but the represented matrix does not map `s` to `y`. -/
theorem C07_false : ∃ (es : Entries ℚ) (s y : List ℚ) (st st' : Fact ℚ),
    Stencil 3 es ∧ Distinct es ∧ Filled es ∧ DiagReach 3 es ∧ MinorsNonzero es 3
    ∧ setMatrix new es = .ok st ∧ secantUpdateProportional st s y = .ok st'
    ∧ ∀ A : Matrix (Fin 3) (Fin 3) ℚ, Represents st' A → A *ᵥ vec s 3 ≠ vec y 3 := by
  obtain ⟨st, h1, h2⟩ := ok_of_test (r := setMatrix new tri) (p := fun st =>
    match secantUpdateProportional st [1, 1, 1] [1, 2, 3] with
    | .ok st' => true
    | _ => false) (by decide +kernel)
  split at h2
  · rename_i st' e1
    refine ⟨tri, [1, 1, 1], [1, 2, 3], st, st', tri_stencil, tri_distinct, tri_filled, tri_diag,
      tri_minors, h1, e1, ?_⟩
    intro A hA
    obtain ⟨A0, A', _, r2, _, r4⟩ := C07_first_row_partial new tri tri_stencil tri_distinct
      tri_filled tri_diag [] (by simp) ⟨st, h1, rfl⟩ [1, 1, 1] [1, 2, 3] (by decide) (by decide)
      e1 (by decide)
    have : A = A' := by
      funext i j
      have := (hA i j).symm.trans (r2 i j)
      exact Except.ok.inj this
    rw [this]
    exact r4 (by simp [vec])
  · cases h2

/-- C61 is false: after a rejected stencil the object no longer solves the system it held;
`solve` reads outside the packed arrays. -/
theorem C61_false : ∃ (es es' : Entries ℚ) (b : List ℚ) (st : Fact ℚ) (e : Fault),
    setMatrix new es = .ok st ∧ (∃ r, solve st b = .ok r)
    ∧ (setMatrixFull st es').fault = some e ∧ solve (setMatrixFull st es').state b = .error .ub := by
  let es : Entries ℚ := [((0, 0), 2)]
  let es2 : Entries ℚ := [((0, 0), 1), ((2, 2), 1)]
  obtain ⟨st, h1, h2⟩ := ok_of_test (r := setMatrix new es) (p := fun st =>
    (solve st [1, 2, 3]).isOk && (setMatrixFull st es2).fault.isSome
      && (match solve (setMatrixFull st es2).state [1, 2, 3] with
        | .error .ub => true
        | _ => false)) (by decide +kernel)
  simp only [Bool.and_eq_true] at h2
  obtain ⟨⟨h2, h3⟩, h4⟩ := h2
  obtain ⟨e, he⟩ := Option.isSome_iff_exists.1 h3
  refine ⟨es, es2, [1, 2, 3], st, e, h1, ?_, he, ?_⟩
  · cases h5 : solve st [1, 2, 3] with
    | error e => rw [h5] at h2; cases h2
    | ok r => exact ⟨r, rfl⟩
  · split at h4
    · assumption
    · cases h4

/-- A non-square stencil, as in `C61_nonsquare_partial`. -/
example : (setMatrixFull new [((0, 0), 1), ((0, 1), 1)]).state = new :=
  (C61_nonsquare_partial new _ (by
    rintro n ⟨h1, h2, h3⟩
    have := h2 0 1 (key_iff.2 (by decide))
    obtain ⟨⟨c, hc⟩, _⟩ := h3 (by omega)
    have := key_iff.1 hc
    simp at this
    omega)).1

end Verif.LU
