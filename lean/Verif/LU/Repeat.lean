import Verif.LU.Props

/-! # Any number of solves -/

namespace Verif.LU

open Verif.Res Finset Matrix

variable {K : Type} [Field K] [DecidableEq K]

set_option linter.unusedSectionVars false

/-- Either just set, or factorized without a zero pivot. -/
def Able {n : Nat} {es : Entries K} (hS : Stencil n es) (st : Fact K) : Prop :=
  Rep (stenOf hS) false (entry es) st ∨
  ∃ M, Rep (stenOf hS) true M st ∧ Zeros (stenOf hS) M ∧
    (∀ r c, r < n → c < n → entry es r c = ∑ k ∈ range n, lowerOf M r k * upperOf M k c) ∧
    ∀ i, i < n → M i i ≠ 0

theorem able_solved {n : Nat} {es : Entries K} (hS : Stencil n es) {st : Fact K} (h : Able hS st)
    {b : List K} (hb : n ≤ b.length) {r : Fact K × List K} (hs : solve st b = .ok r) :
    Able hS r.1 ∧ r.2.length = b.length ∧ (Filled es → matrixOf es n *ᵥ vec r.2 n = vec b n) := by
  have hH : Holds (stenOf hS) (entry es) st := by
    rcases h with h | ⟨M, h1, h2, h3, -⟩
    · exact .plain h (inEnv_entry hS)
    · exact .factors M h1 h2 h3
  have hp := solve_holds hH b hb
  obtain ⟨st', x⟩ := r
  rw [hs] at hp
  obtain ⟨M, hR, hz, hA, hM, hpiv, hx⟩ := hp
  simp only at hx hR
  refine ⟨Or.inr ⟨M, hR, hz, hA, hpiv⟩, by rw [hx]; simp, fun hf => ?_⟩
  refine (mulVec_iff (n := n) (entry es) (fun i => x.getD i 0) (fun i => b.getD i 0)).2 ?_
  intro i hi
  have hsol := solX_solves (E := stenOf hS) hpiv (fun i => b.getD i 0) hi
  rw [← hsol]
  have e1 : ∑ c ∈ range n, entry es i c * x.getD c 0
      = ∑ c ∈ range n, (∑ k ∈ range n, lowerOf M i k * upperOf M k c)
          * solX (stenOf hS) M (fun i => b.getD i 0) c := by
    apply Finset.sum_congr rfl
    intro c hc
    have hc := mem_range.1 hc
    rw [hA i c hi hc, hx, getD_map_range (by omega),
      if_pos (show c < (stenOf hS).n from hc)]
    rfl
  rw [e1, sum_swap]
  apply Finset.sum_congr rfl
  intro k _
  congr 1
  apply Finset.sum_congr rfl
  intro c hc
  rw [truncU_eq (filled_env hS hf) hz (mem_range.1 hc)]


theorem able_solve {n : Nat} {es : Entries K} (hS : Stencil n es) (hf : Filled es)
    (hm : MinorsNonzero es n) {st : Fact K} (h : Able hS st) (b : List K) (hb : n ≤ b.length) :
    ∃ st' x, solve st b = .ok (st', x) ∧ Able hS st' ∧ x.length = b.length ∧
      matrixOf es n *ᵥ vec x n = vec b n := by
  have hH : Holds (stenOf hS) (entry es) st := by
    rcases h with h | ⟨M, h1, h2, h3, -⟩
    · exact .plain h (inEnv_entry hS)
    · exact .factors M h1 h2 h3
  have hp := solve_holds hH b hb
  cases hs : solve st b with
  | error e =>
    exfalso
    rcases h with h | ⟨M, h1, h2, h3, h4⟩
    · rw [hs] at hp
      obtain ⟨i, hi, h0⟩ := hp.2 h.fact
      exact (minors_lu es n).1 hm i hi h0
    · have hsol := solve_post_factors h1 h2 (fun i => b.getD i 0) hb
      rw [← list_eq_map 0 b] at hsol
      unfold solve factorize at hs
      rw [if_pos h1.fact, bind_ok] at hs
      have e : (forward st b >>= fun x => backward st x >>= fun x => (.ok (st, x) : Res _))
          = ((forward st b >>= fun x => backward st x) >>= fun x => .ok (st, x)) := by
        cases forward st b <;> rfl
      rw [e] at hs
      cases hfb : (forward st b >>= fun x => backward st x) with
      | error e' =>
        rw [hfb] at hsol
        obtain ⟨-, i, hi, h0⟩ := hsol
        exact h4 i hi h0
      | ok x =>
        rw [hfb] at hs
        cases hs
  | ok r =>
    obtain ⟨h1, h2, h3⟩ := able_solved hS h hb hs
    exact ⟨r.1, r.2, rfl, h1, h2, h3 hf⟩

theorem able_set {n : Nat} {es : Entries K} (hS : Stencil n es) (hd : Distinct es) {st0 st : Fact K}
    (h : setMatrix st0 es = .ok st) : Able hS st := by
  obtain ⟨st', e1, e2⟩ := setMatrix_rep hS hd st0
  rw [h] at e1
  cases e1
  exact Or.inl e2

theorem able_fast {n : Nat} {es : Entries K} (hS : Stencil n es) {st : Fact K} (h : Able hS st)
    (es' : Entries K) (hd' : Distinct es') (hk : ∀ r c, Key es' r c ↔ Key es r c) :
    setMatrixFast st es' = setMatrix st es' := by
  have hH : Holds (stenOf hS) (entry es) st := by
    rcases h with h | ⟨M, h1, h2, h3, -⟩
    · exact .plain h (inEnv_entry hS)
    · exact .factors M h1 h2 h3
  exact fast_same_stencil hS hH es' hd' hk

/-- C01 (`_partial`: the fill condition): after `setMatrix` any number of right-hand sides can be solved
for, one after the other; every call returns the solution of the system. -/
theorem C01_repeat_partial (st0 : Fact K) (es : Entries K) {n : Nat} (hS : Stencil n es)
    (hd : Distinct es) (hf : Filled es) (hm : MinorsNonzero es n) (bs : List (List K))
    (hl : ∀ b ∈ bs, n ≤ b.length) :
    ∃ st, History st0 es (bs.map Op.solve) st ∧ ∀ b : List K, n ≤ b.length →
      ∃ st' x, solve st b = .ok (st', x) ∧ x.length = b.length ∧ matrixOf es n *ᵥ vec x n = vec b n := by
  obtain ⟨st1, e1, e2⟩ := setMatrix_rep hS hd st0
  have hrun : ∀ st : Fact K, Able hS st →
      ∃ st', (bs.map Op.solve).foldlM Op.apply st = (.ok st' : Res _) ∧ Able hS st' := by
    clear e1 e2
    induction bs with
    | nil => exact fun st h => ⟨st, rfl, h⟩
    | cons b bs ih =>
      intro st h
      obtain ⟨st2, x, h1, h2, -, -⟩ := able_solve hS hf hm h b (hl b List.mem_cons_self)
      obtain ⟨st3, h3, h4⟩ := ih (fun b hb => hl b (List.mem_cons_of_mem _ hb)) st2 h2
      refine ⟨st3, ?_, h4⟩
      have happ : (Op.solve b).apply st = .ok st2 := by
        simp only [Op.apply]
        rw [h1, bind_ok]
      rw [List.map_cons, List.foldlM_cons, happ]
      exact h3
  obtain ⟨st, h1, h2⟩ := hrun st1 (Or.inl e2)
  refine ⟨st, ⟨st1, e1, h1⟩, fun b hb => ?_⟩
  obtain ⟨st', x, h3, -, h4, h5⟩ := able_solve hS hf hm h2 b hb
  exact ⟨st', x, h3, h4, h5⟩

end Verif.LU
