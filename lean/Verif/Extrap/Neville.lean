import Verif.Extrap.Seq
import Mathlib.LinearAlgebra.Lagrange
import Mathlib.Algebra.Order.Field.Basic
import Mathlib.Tactic.FieldSimp

/-! # Extrapolation to zero and the in-place recursion (C32) -/

namespace Verif.Extrap

open Verif.Res Verif.RK
open scoped BigOperators
open Finset Polynomial

section
variable {K V : Type} [Field K] [AddCommGroup V] [Module K V]

/-- Value at zero of the polynomial through the points `(v m, T m)`, `m ∈ s`. -/
noncomputable def extrap (s : Finset Nat) (v : Nat → K) (T : Nat → V) : V :=
  ∑ m ∈ s, (Lagrange.basis s v m).eval 0 • T m

theorem extrap_singleton (i : Nat) (v : Nat → K) (T : Nat → V) : extrap {i} v T = T i := by
  simp [extrap]

/-- Extrapolation is exact for polynomials with vector coefficients. -/
theorem extrap_poly (s : Finset Nat) (v : Nat → K) (hv : Set.InjOn v s) (c : Nat → V) (d : Nat)
    (hd : d ≤ s.card) (hd0 : 1 ≤ d) :
    extrap s v (fun m => ∑ j ∈ range d, v m ^ j • c j) = c 0 := by
  unfold extrap
  simp only [smul_sum, smul_smul]
  rw [sum_comm]
  have key : ∀ j ∈ range d, (∑ m ∈ s, (eval 0 (Lagrange.basis s v m) * v m ^ j) • c j)
      = if j = 0 then c 0 else 0 := by
    intro j hj
    rw [mem_range] at hj
    have h1 : (X ^ j : K[X]) = Lagrange.interpolate s v (fun m => v m ^ j) := by
      apply Lagrange.eq_interpolate_of_eval_eq _ hv
      · rw [degree_X_pow]
        exact_mod_cast (by omega)
      · intro i _
        simp
    have h2 := congrArg (eval (0 : K)) h1
    rw [Lagrange.interpolate_apply, eval_finsetSum] at h2
    simp only [eval_pow, eval_X, eval_mul, eval_C] at h2
    rw [← sum_smul]
    have h3 : ∑ m ∈ s, eval 0 (Lagrange.basis s v m) * v m ^ j = (0 : K) ^ j := by
      rw [h2]
      exact sum_congr rfl (fun m _ => mul_comm _ _)
    rw [h3]
    split
    · next h => rw [h, pow_zero, one_smul]
    · next h => rw [zero_pow h, zero_smul]
  rw [sum_congr rfl key, sum_ite_eq' (range d) 0, if_pos (mem_range.2 (by omega))]

/-- Every set of values at distinct nodes is taken by a polynomial of degree less than the number
of nodes, and only by one. -/
theorem exists_unique_poly (s : Finset Nat) (v : Nat → K) (hv : Set.InjOn v s) (T : Nat → V) :
    ∃ c : Nat → V, (∀ m ∈ s, T m = ∑ j ∈ range s.card, v m ^ j • c j) ∧
      ∀ c' : Nat → V, (∀ m ∈ s, T m = ∑ j ∈ range s.card, v m ^ j • c' j) →
        ∀ j, j < s.card → c' j = c j := by
  have hdeg : ∀ m ∈ s, (Lagrange.basis s v m).natDegree < s.card := by
    intro m hm
    rw [Lagrange.natDegree_basis hv hm]
    have := card_pos.2 ⟨m, hm⟩
    omega
  refine ⟨fun j => ∑ i ∈ s, (Lagrange.basis s v i).coeff j • T i, ?_, ?_⟩
  · intro m hm
    simp only [smul_sum, smul_smul]
    rw [sum_comm]
    have : ∀ i ∈ s, (∑ j ∈ range s.card, (v m ^ j * (Lagrange.basis s v i).coeff j) • T i)
        = if i = m then T m else 0 := by
      intro i hi
      rw [← sum_smul]
      have h1 : ∑ j ∈ range s.card, v m ^ j * (Lagrange.basis s v i).coeff j
          = (Lagrange.basis s v i).eval (v m) := by
        rw [eval_eq_sum_range' (hdeg i hi)]
        exact sum_congr rfl (fun j _ => mul_comm _ _)
      rw [h1]
      split
      · next h => rw [h, Lagrange.eval_basis_self hv hm, one_smul]
      · next h => rw [Lagrange.eval_basis_of_ne h hm, zero_smul]
    rw [sum_congr rfl this, sum_ite_eq' s m, if_pos hm]
  · intro c' hc' j hj
    have h1 : ∀ i ∈ s, (Lagrange.basis s v i).coeff j • T i
        = ∑ l ∈ range s.card, ((Lagrange.basis s v i).coeff j * v i ^ l) • c' l := by
      intro i hi
      rw [hc' i hi, smul_sum]
      exact sum_congr rfl (fun l _ => smul_smul _ _ _)
    show c' j = ∑ i ∈ s, (Lagrange.basis s v i).coeff j • T i
    rw [sum_congr rfl h1, sum_comm]
    have h2 : ∀ l ∈ range s.card,
        (∑ i ∈ s, ((Lagrange.basis s v i).coeff j * v i ^ l) • c' l) = if l = j then c' j else 0 := by
      intro l hl
      rw [mem_range] at hl
      have h3 : (X ^ l : K[X]) = Lagrange.interpolate s v (fun m => v m ^ l) := by
        apply Lagrange.eq_interpolate_of_eval_eq _ hv
        · rw [degree_X_pow]
          exact_mod_cast hl
        · intro i _
          simp
      have h4 := congrArg (fun p => coeff p j) h3
      simp only [Lagrange.interpolate_apply, finsetSum_coeff, coeff_C_mul, coeff_X_pow] at h4
      rw [← sum_smul]
      have h5 : ∑ i ∈ s, (Lagrange.basis s v i).coeff j * v i ^ l = if j = l then 1 else 0 := by
        rw [h4]
        exact sum_congr rfl (fun m _ => mul_comm _ _)
      rw [h5]
      split
      · next h => rw [if_pos h.symm, h, one_smul]
      · next h => rw [if_neg (fun h' => h h'.symm), zero_smul]
    rw [sum_congr rfl h2, sum_ite_eq' (range s.card) j, if_pos (mem_range.2 hj)]

theorem basis_rec (s : Finset Nat) (v : Nat → K) (hv : Set.InjOn v s) {i j : Nat} (hi : i ∈ s)
    (hj : j ∈ s) (hij : i ≠ j) (m : Nat) (hm : m ∈ s) :
    (Lagrange.basis s v m).eval 0
      = (if m = j then 0 else (Lagrange.basis (s.erase j) v m).eval 0) * ((v i - v j)⁻¹ * (0 - v j))
      + (if m = i then 0 else (Lagrange.basis (s.erase i) v m).eval 0) * ((v j - v i)⁻¹ * (0 - v i)) := by
  have h := Lagrange.interpolate_eq_add_interpolate_erase (r := Pi.single m (1 : K)) hv hi hj hij
  have key : ∀ s' : Finset Nat, (Lagrange.interpolate s' v (Pi.single m (1 : K))).eval 0
      = if m ∈ s' then (Lagrange.basis s' v m).eval 0 else 0 := by
    intro s'
    rw [Lagrange.interpolate_apply, eval_finsetSum]
    simp only [eval_mul, eval_C, Pi.single_apply, ite_mul, one_mul, zero_mul]
    rw [sum_ite_eq' s' m]
  have h2 := congrArg (eval (0 : K)) h
  rw [eval_add, eval_mul, eval_mul, key, key, key, if_pos hm] at h2
  rw [h2]
  congr 2
  · by_cases hmj : m = j
    · rw [if_neg (by simp [hmj]), if_pos hmj]
    · rw [if_pos (mem_erase.2 ⟨hmj, hm⟩), if_neg hmj]
  · simp [Lagrange.basisDivisor]
  · by_cases hmj : m = i
    · rw [if_neg (by simp [hmj]), if_pos hmj]
    · rw [if_pos (mem_erase.2 ⟨hmj, hm⟩), if_neg hmj]
  · simp [Lagrange.basisDivisor]

/-- Neville's recursion for extrapolation. -/
theorem extrap_rec (s : Finset Nat) (v : Nat → K) (hv : Set.InjOn v s) {i j : Nat} (hi : i ∈ s)
    (hj : j ∈ s) (hij : i ≠ j) (T : Nat → V) :
    extrap s v T = (-(v j) / (v i - v j)) • extrap (s.erase j) v T
      + (v i / (v i - v j)) • extrap (s.erase i) v T := by
  have hne : v i - v j ≠ 0 := sub_ne_zero.2 (fun h => hij (hv hi hj h))
  have e1 : (v i - v j)⁻¹ * (0 - v j) = -(v j) / (v i - v j) := by field_simp; ring
  have e2 : (v j - v i)⁻¹ * (0 - v i) = v i / (v i - v j) := by
    have : v j - v i ≠ 0 := by rw [← neg_sub]; exact neg_ne_zero.2 hne
    rw [eq_div_iff hne, ← neg_sub (v i) (v j), inv_neg]
    field_simp
    ring
  unfold extrap
  have h1 : ∀ m ∈ s, (Lagrange.basis s v m).eval 0 • T m
      = (-(v j) / (v i - v j)) • (if m = j then (0 : V) else (Lagrange.basis (s.erase j) v m).eval 0 • T m)
      + (v i / (v i - v j)) • (if m = i then (0 : V) else (Lagrange.basis (s.erase i) v m).eval 0 • T m) := by
    intro m hm
    rw [basis_rec s v hv hi hj hij m hm, e1, e2, add_smul]
    congr 1
    · split
      · simp
      · rw [smul_smul, mul_comm]
    · split
      · simp
      · rw [smul_smul, mul_comm]
  rw [sum_congr rfl h1, sum_add_distrib, ← smul_sum, ← smul_sum]
  have h2 : ∀ (k : Nat) (_ : k ∈ s) (g : Nat → V), (∑ m ∈ s, if m = k then (0 : V) else g m)
      = ∑ m ∈ s.erase k, g m := by
    intro k hk g
    rw [← add_sum_erase s _ hk, if_pos rfl, zero_add]
    apply sum_congr rfl
    intro m hm
    rw [if_neg (ne_of_mem_erase hm)]
  rw [h2 j hj, h2 i hi]

end

/-! ### The loops of the code -/

section
variable {K V : Type} [Field K] [LinearOrder K] [IsStrictOrderedRing K] [AddCommGroup V] [Module K V]

/-- The node of stage number `n`: `1/n`, or `1/n²` for symmetric methods. -/
def node (symmetric : Bool) (n : Nat) : K := (1 / (n : K)) ^ (if symmetric then 2 else 1)

theorem node_lt {sym : Bool} {a b : Nat} (ha : 0 < a) (h : a < b) :
    (node sym b : K) < node sym a := by
  unfold node
  have ha' : (0 : K) < a := by exact_mod_cast ha
  have hb' : (0 : K) < b := by exact_mod_cast ha.trans h
  have h' : (a : K) < b := by exact_mod_cast h
  have h1 : 1 / (b : K) < 1 / a := one_div_lt_one_div_of_lt ha' h'
  have h2 : 0 < 1 / (b : K) := by positivity
  cases sym
  · simpa using h1
  · simpa using pow_lt_pow_left₀ h1 h2.le two_ne_zero

theorem node_pos {sym : Bool} {a : Nat} (ha : 0 < a) : (0 : K) < node sym a := by
  unfold node
  have ha' : (0 : K) < a := by exact_mod_cast ha
  positivity

/-- The divisions of one update are defined, with `r = node a / node b`. -/
theorem factors (sym : Bool) {a b : Nat} (hb : 0 < b) (hab : b < a) :
    Res.div (a : K) (b : K) = .ok ((a : K) / b) ∧
    Res.div 1 ((if sym then (a : K) / b * ((a : K) / b) else (a : K) / b) - 1)
      = .ok (node sym a / (node sym b - node sym a)) ∧
    1 + node sym a / (node sym b - node sym a) = (node sym b / (node sym b - node sym a) : K) := by
  have hb' : (0 : K) < b := by exact_mod_cast hb
  have ha' : (0 : K) < a := by exact_mod_cast hb.trans hab
  have hlt := node_lt (K := K) (sym := sym) hb hab
  have hne : (node sym b : K) - node sym a ≠ 0 := (sub_pos.2 hlt).ne'
  have hr : (if sym then (a : K) / b * ((a : K) / b) else (a : K) / b) = node sym b / node sym a := by
    unfold node
    cases sym
    · simp only [Bool.false_eq_true, if_false, pow_one]
      field_simp
    · simp only [if_true]
      field_simp
  have hapos := node_pos (K := K) (sym := sym) (hb.trans hab)
  have hd : (node sym b / node sym a - 1 : K) = (node sym b - node sym a) / node sym a := by
    field_simp
  refine ⟨by rw [Res.div, if_neg hb'.ne'], ?_, ?_⟩
  · rw [hr, hd, Res.div, if_neg (div_ne_zero hne hapos.ne'), one_div_div]
  · field_simp
    ring

/-- One update of the recursion. -/
theorem nevilleStep_ok (sym : Bool) (n : List Nat) (k i : Nat) (T : List V) (T1 T2 : V) (a b : Nat)
    (h1 : T[i]? = some T1) (h2 : T[i + 1]? = some T2) (ha : n[i + k]? = some a)
    (hb : n[i]? = some b) (hb0 : 0 < b) (hab : b < a) :
    nevilleStep (K := K) sym n k (i + k + 1) T
      = .ok (T.set i ((-(node sym a) / (node sym b - node sym a) : K) • T1
          + (node sym b / (node sym b - node sym a) : K) • T2)) := by
  obtain ⟨f1, f2, f3⟩ := factors (K := K) sym hb0 hab
  have hi : i < T.length := by
    by_contra h
    rw [List.getElem?_eq_none (by omega)] at h1
    cases h1
  unfold nevilleStep
  rw [show i + k + 1 - k - 1 = i by omega, show i + k + 1 - k = i + 1 by omega,
    show i + k + 1 - 1 = i + k by omega, raw_of_getElem? h1, raw_of_getElem? h2,
    raw_of_getElem? ha, raw_of_getElem? hb]
  simp only [bind_ok]
  rw [f1]
  simp only [bind_ok]
  rw [f2]
  simp only [bind_ok]
  rw [f3, rawSet, if_pos hi, neg_div]

/-- Contents of the stage array after round `k` of the recursion, with the first `i` entries
updated in round `k + 1`: place `m` holds the extrapolation over the stages `m, …, m + r` with
the reach `r` below. -/
def reach (M k i m : Nat) : Nat :=
  if M ≤ m + k + 1 then M - 1 - m else if m < i then k + 1 else k

/-- C32, the recursion in place: after it place `i` of the stage array holds the extrapolation to
zero over the stages `i, …, M - 1`. -/
theorem neville_ok (sym : Bool) (M : Nat) (n : List Nat) (b : Nat → Nat) (hpos : 0 < b 0)
    (hmono : StrictMono b) (hn : ∀ i, i < M → n[i]? = some (b i)) (T : List V) (hT : M ≤ T.length) :
    ∃ T', neville (K := K) sym M n T = .ok T' ∧ T'.length = T.length ∧
      ∀ i, i < M → T'[i]? = some (extrap (Ico i M) (fun m => (node sym (b m) : K))
        (fun m => T.getD m 0)) := by
  have hbpos : ∀ i, 0 < b i := fun i => lt_of_lt_of_le hpos (hmono.monotone (Nat.zero_le i))
  set v : Nat → K := fun m => node sym (b m) with hv
  set F : Nat → V := fun m => T.getD m 0 with hF
  have hinj : Function.Injective v := by
    have : StrictAnti v := fun x y h => node_lt (hbpos x) (hmono h)
    exact this.injective
  let Inv : Nat → Nat → List V → Prop := fun k i L => L.length = T.length ∧
    ∀ m, m < M → L[m]? = some (extrap (Icc m (m + reach M k i m)) v F)
  have step : ∀ k i L, k + 1 < M → i < M - (k + 1) → Inv k i L →
      Post (nevilleStep (K := K) sym n (k + 1) (i + (k + 1) + 1) L) (Inv k (i + 1)) (fun _ => False) := by
    intro k i L hk hi ⟨hlen, hL⟩
    have h1 := hL i (by omega)
    have h2 := hL (i + 1) (by omega)
    rw [nevilleStep_ok sym n (k + 1) i L _ _ (b (i + (k + 1))) (b i) h1 h2 (hn _ (by omega))
      (hn _ (by omega)) (hbpos i) (hmono (by omega))]
    refine ⟨by rw [List.length_set, hlen], ?_⟩
    intro m hm
    by_cases hmi : m = i
    · subst hmi
      rw [List.getElem?_set_self (by omega)]
      congr 1
      have r1 : reach M k m m = k := by
        unfold reach; split
        · omega
        · rw [if_neg (by omega)]
      have r2 : m + 1 + reach M k m (m + 1) = m + (k + 1) := by
        unfold reach; split
        · omega
        · rw [if_neg (by omega)]; omega
      have r3 : reach M k (m + 1) m = k + 1 := by
        unfold reach; split
        · omega
        · rw [if_pos (by omega)]
      rw [r1, r2, r3]
      have := extrap_rec (Icc m (m + (k + 1))) v hinj.injOn (i := m) (j := m + (k + 1))
        (by simp) (by simp) (by omega) F
      rw [this]
      congr 3
      · ext x; simp only [mem_erase, mem_Icc]; omega
      · ext x; simp only [mem_erase, mem_Icc]; omega
    · rw [List.getElem?_set_ne (fun h => hmi h.symm), hL m hm]
      have : reach M k (i + 1) m = reach M k i m := by
        unfold reach; split
        · rfl
        · by_cases h : m < i
          · rw [if_pos h, if_pos (by omega)]
          · rw [if_neg h, if_neg (by omega)]
      rw [this]
  have round : ∀ k L, k + 1 < M → Inv k 0 L →
      Post (loop (k + 1 + 1) (M + 1) (nevilleStep (K := K) sym n (k + 1)) L) (Inv (k + 1) 0)
        (fun _ => False) := by
    intro k L hk h0
    have := loop_post (lo := k + 1 + 1) (hi := M + 1) (s := L) (f := nevilleStep (K := K) sym n (k + 1))
      (fun j L => Inv k (j - (k + 2)) L) (E := fun _ => False) (by omega) (by simpa using h0)
      (by
        intro j L hj1 hj2 hI
        have := step k (j - (k + 2)) L hk (by omega) hI
        rw [show j - (k + 2) + (k + 1) + 1 = j by omega] at this
        rw [show j + 1 - (k + 2) = j - (k + 2) + 1 by omega]
        exact this)
    refine this.mono ?_ (fun _ h => h)
    intro L' ⟨hl, hI⟩
    refine ⟨hl, fun m hm => ?_⟩
    rw [hI m hm]
    have : reach M k (M + 1 - (k + 2)) m = reach M (k + 1) 0 m := by
      unfold reach
      by_cases h1 : M ≤ m + k + 1
      · rw [if_pos h1, if_pos (by omega)]
      · rw [if_neg h1, if_pos (by omega)]
        by_cases h2 : M ≤ m + (k + 1) + 1
        · rw [if_pos h2]; omega
        · rw [if_neg h2, if_neg (by omega)]
    rw [this]
  have h0 : Inv 0 0 T := by
    refine ⟨rfl, fun m hm => ?_⟩
    have : reach M 0 0 m = 0 := by
      unfold reach; split
      · omega
      · rw [if_neg (by omega)]
    rw [this, Nat.add_zero, Icc_self, extrap_singleton, hF]
    simp only [List.getD_eq_getElem?_getD]
    rw [List.getElem?_eq_getElem (by omega)]
    rfl
  have fin : Post (neville (K := K) sym M n T) (Inv (M - 1) 0) (fun _ => False) := by
    unfold neville
    rcases Nat.lt_or_ge M 2 with hM | hM
    · rw [loop_of_ge (by omega)]
      refine ⟨rfl, fun m hm => ?_⟩
      rw [h0.2 m hm]
      have : reach M 0 0 m = reach M (M - 1) 0 m := by unfold reach; rw [if_pos (by omega), if_pos (by omega)]
      rw [this]
    · exact loop_post (lo := 1) (hi := M) (s := T)
        (f := fun k T => loop (k + 1) (M + 1) (nevilleStep (K := K) sym n k) T)
        (fun k L => Inv (k - 1) 0 L) (E := fun _ => False) (by omega) h0
        (by
          intro k L hk1 hk2 hI
          have := round (k - 1) L (by omega) hI
          rw [show k - 1 + 1 = k by omega] at this
          rw [show k + 1 - 1 = k by omega]
          exact this)
  obtain ⟨T', hT', hlen, hfin⟩ := post_false_iff.1 fin
  refine ⟨T', hT', hlen, fun i hi => ?_⟩
  rw [hfin i hi]
  congr 1
  have : Icc i (i + reach M (M - 1) 0 i) = Ico i M := by
    ext x
    have : reach M (M - 1) 0 i = M - 1 - i := by unfold reach; rw [if_pos (by omega)]
    rw [this]
    simp only [mem_Icc, mem_Ico]; omega
  rw [this]

end

end Verif.Extrap
