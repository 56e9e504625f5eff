import Verif.RK.Model
import Verif.Loop
import Mathlib.Algebra.BigOperators.Group.Finset.Basic
import Mathlib.Algebra.BigOperators.Intervals
import Mathlib.Algebra.Module.BigOperators
import Mathlib.Tactic.Ring
import Mathlib.Tactic.Abel

/-! # The kernel computes the method of its tableau -/

namespace Verif.RK

open Verif.Res
open scoped BigOperators

/-- Sizes asserted by the code. -/
structure Coefficients.Sizes {R : Type} (co : Coefficients R) (s n : Nat) : Prop where
  pos : 1 ≤ s
  a : co.a.length = s * (s - 1) / 2
  b : co.b.length = s * n
  c : co.c.length + 1 = s

variable {R V : Type} [CommRing R] [DecidableEq R] [AddCommGroup V] [Module R V]

/-- Coefficient `a i j` of the packed lower triangle (row `i` starts at `i (i-1) / 2`). -/
def Coefficients.A (co : Coefficients R) (i j : Nat) : R := co.a.getD (i * (i - 1) / 2 + j) 0

/-- Coefficient `b i` of output `ix` of a method with `s` stages. -/
def Coefficients.B (co : Coefficients R) (s ix i : Nat) : R := co.b.getD (ix * s + i) 0

/-- Node `c i`; the first one is zero and not stored. -/
def Coefficients.C (co : Coefficients R) : Nat → R
  | 0 => 0
  | i + 1 => co.c.getD i 0

theorem raw_getD {α : Type} {l : List α} {i : Nat} (d : α) (h : i < l.length) :
    raw l i = .ok (l.getD i d) := by
  simp [raw, List.getElem?_eq_getElem h]

/-- The accumulation loop of both `stageArg` and `combine`. -/
theorem accumulate (a : List R) (k : List V) (h : R) (n : Nat) (x1 : V) (pos : Nat)
    (ha : pos + n ≤ a.length) (hk : n ≤ k.length) :
    loop 0 n (fun i (s : V × Nat) => do
      let av ← raw a s.2
      if av ≠ 0 then do
        let ki ← raw k i
        .ok (s.1 + (h * av) • ki, s.2 + 1)
      else .ok (s.1, s.2 + 1)) (x1, pos)
    = .ok (x1 + h • ∑ j ∈ Finset.range n, a.getD (pos + j) 0 • k.getD j 0, pos + n) := by
  have := loop_post (lo := 0) (hi := n) (s := (x1, pos)) (E := fun _ => False)
    (f := fun i (s : V × Nat) => do
      let av ← raw a s.2
      if av ≠ 0 then do
        let ki ← raw k i
        .ok (s.1 + (h * av) • ki, s.2 + 1)
      else .ok (s.1, s.2 + 1))
    (fun m s => s = (x1 + h • ∑ j ∈ Finset.range m, a.getD (pos + j) 0 • k.getD j 0, pos + m))
    (Nat.zero_le _) (by simp) ?_
  · obtain ⟨r, hr, rfl⟩ := post_false_iff.1 this
    exact hr
  · rintro i s _ hi rfl
    rw [raw_getD 0 (by omega)]
    simp only [bind_ok]
    rw [Finset.sum_range_succ]
    split
    · rw [raw_getD 0 (by omega)]
      simp only [bind_ok, post_ok]
      rw [smul_add, smul_smul, ← add_assoc, Nat.add_assoc]
    · rename_i hz
      simp only [ne_eq, not_not] at hz
      simp only [post_ok, hz, zero_smul, add_zero, Nat.add_assoc]

theorem tri_succ (i : Nat) : (i + 1) * (i + 1 - 1) / 2 = i * (i - 1) / 2 + i := by
  cases i with
  | zero => rfl
  | succ n =>
    simp only [Nat.add_sub_cancel]
    have : (n + 1 + 1) * (n + 1) = (n + 1) * n + (n + 1) * 2 := by ring
    rw [this, Nat.add_mul_div_right _ _ (by norm_num)]

theorem tri_le {i s : Nat} (h : i < s) : i * (i - 1) / 2 + i ≤ s * (s - 1) / 2 := by
  induction s with
  | zero => omega
  | succ s ih =>
    rcases Nat.lt_succ_iff_lt_or_eq.1 h with h | rfl
    · rw [tri_succ s]; have := ih h; omega
    · rw [tri_succ]

theorem getD_set_self {α : Type} {l : List α} {i : Nat} {v d : α} (h : i < l.length) :
    (l.set i v).getD i d = v := by
  simp [List.getD_eq_getElem?_getD, List.getElem?_set_self h]

theorem getD_set_ne {α : Type} {l : List α} {i j : Nat} {v d : α} (h : i ≠ j) :
    (l.set i v).getD j d = l.getD j d := by
  simp [List.getD_eq_getElem?_getD, List.getElem?_set_ne h]

/-- The stages satisfy the defining equations of the method. -/
def IsStages (co : Coefficients R) (rhs : R → V → V) (x1 : V) (t1 h : R) (n : Nat)
    (k : List V) : Prop :=
  ∀ i, i < n → k.getD i 0
    = rhs (t1 + h * co.C i) (x1 + h • ∑ j ∈ Finset.range i, co.A i j • k.getD j 0)

theorem stages_post (co : Coefficients R) (rhs : R → V → V) (x1 : V) (t1 h : R) (o : Output V)
    (n : Nat) (hs : co.Sizes o.k.length n) :
    ∃ k buf pos, loop 1 o.k.length (stageStep co rhs x1 t1 h)
        ({ o with k := o.k.set 0 (rhs t1 x1) }, 0) = .ok (⟨k, o.x2, buf⟩, pos) ∧
      k.length = o.k.length ∧ IsStages co rhs x1 t1 h o.k.length k ∧
      (2 ≤ o.k.length → buf = x1 + h • ∑ j ∈ Finset.range (o.k.length - 1),
        co.A (o.k.length - 1) j • k.getD j 0) ∧ (o.k.length = 1 → buf = o.buf) := by
  have hpos := hs.pos
  have := loop_post (lo := 1) (hi := o.k.length) (f := stageStep co rhs x1 t1 h)
    (s := ({ o with k := o.k.set 0 (rhs t1 x1) }, 0)) (E := fun _ => False)
    (fun m s => s.1.k.length = o.k.length ∧ s.2 = m * (m - 1) / 2 ∧ s.1.x2 = o.x2 ∧
      IsStages co rhs x1 t1 h m s.1.k ∧
      (2 ≤ m → s.1.buf = x1 + h • ∑ j ∈ Finset.range (m - 1),
        co.A (m - 1) j • s.1.k.getD j 0) ∧ (m = 1 → s.1.buf = o.buf))
    hpos ?_ ?_
  · obtain ⟨⟨⟨k, x2, buf⟩, pos⟩, hr, h1, h2, h3, h4, h5, h6⟩ := post_false_iff.1 this
    simp only at h3
    subst h3
    exact ⟨k, buf, pos, hr, h1, h4, h5, h6⟩
  · refine ⟨by simp, rfl, rfl, ?_, by omega, fun _ => rfl⟩
    intro i hi
    have : i = 0 := by omega
    subst this
    rw [getD_set_self (by omega)]
    simp [Coefficients.C]
  · rintro m ⟨⟨k, x2, buf⟩, pos⟩ hm1 hm ⟨h1, h2, h3, h4, _, _⟩
    simp only at h1 h2 h3 h4
    subst h2 h3
    unfold stageStep stageArg
    have htri := tri_le hm
    rw [accumulate co.a k h m x1 _ (by rw [hs.a]; omega) (by omega)]
    simp only [bind_ok]
    rw [raw_getD 0 (by have := hs.c; omega)]
    simp only [bind_ok]
    unfold rawSet
    rw [if_pos (by omega)]
    simp only [bind_ok, post_ok]
    have hstay : ∀ (c : Nat → R), (∑ j ∈ Finset.range m, c j • (k.set m (rhs (t1 + h * co.c.getD (m - 1) 0)
        (x1 + h • ∑ j ∈ Finset.range m, co.a.getD (m * (m - 1) / 2 + j) 0 • k.getD j 0))).getD j 0)
        = ∑ j ∈ Finset.range m, c j • k.getD j 0 := by
      intro c
      apply Finset.sum_congr rfl
      intro j hj
      rw [Finset.mem_range] at hj
      rw [getD_set_ne (by omega)]
    refine ⟨by simp [h1], (tri_succ m).symm, trivial, ?_, ?_, by omega⟩
    · intro i hi
      rcases Nat.lt_succ_iff_lt_or_eq.1 hi with hi | rfl
      · rw [getD_set_ne (by omega), h4 i hi]
        congr 3
        apply Finset.sum_congr rfl
        intro j hj
        rw [Finset.mem_range] at hj
        rw [getD_set_ne (by omega)]
      · rw [getD_set_self (by omega), hstay]
        obtain ⟨m', rfl⟩ : ∃ m', i = m' + 1 := ⟨i - 1, by omega⟩
        rfl
    · intro _
      rw [Nat.add_sub_cancel, hstay]
      rfl

/-- The result of `compute`. -/
theorem compute_ok (o : Output V) (co : Coefficients R) (rhs : R → V → V) (x1 : V) (t1 h : R)
    (hs : co.Sizes o.k.length o.x2.length) :
    ∃ o', compute o co rhs x1 t1 h = .ok o' ∧ o'.k.length = o.k.length ∧
      o'.x2.length = o.x2.length ∧ IsStages co rhs x1 t1 h o.k.length o'.k ∧
      ∀ ix, ix < o.x2.length →
        ((ix : Int) ≠ co.lastK → o'.x2.getD ix 0
          = x1 + h • ∑ i ∈ Finset.range o.k.length, co.B o.k.length ix i • o'.k.getD i 0) ∧
        ((ix : Int) = co.lastK → 2 ≤ o.k.length → o'.x2.getD ix 0
          = x1 + h • ∑ j ∈ Finset.range (o.k.length - 1),
            co.A (o.k.length - 1) j • o'.k.getD j 0) ∧
        ((ix : Int) = co.lastK → o.k.length = 1 → o'.x2.getD ix 0 = o.buf) := by
  obtain ⟨k, buf, pos, h1, h2, h3, h4, h5⟩ := stages_post co rhs x1 t1 h o o.x2.length hs
  have hpos := hs.pos
  have hb := hs.b
  set S := o.k.length with hS
  have := loop_post (lo := 0) (hi := o.x2.length) (f := outputStep co S x1 h)
    (s := (⟨k, o.x2, buf⟩, 0)) (E := fun _ => False)
    (fun m s => s.1.k = k ∧ s.1.x2.length = o.x2.length ∧ s.2 = m * S ∧
      ((∀ j, j < m → (j : Int) ≠ co.lastK) → s.1.buf = buf) ∧
      ∀ ix, ix < m →
        ((ix : Int) ≠ co.lastK → s.1.x2.getD ix 0
          = x1 + h • ∑ i ∈ Finset.range S, co.B S ix i • k.getD i 0) ∧
        ((ix : Int) = co.lastK → s.1.x2.getD ix 0 = buf))
    (Nat.zero_le _) ⟨rfl, rfl, by simp, fun _ => rfl, by omega⟩ ?_
  · obtain ⟨⟨⟨k', x2, buf'⟩, pos'⟩, hr, a1, a2, a3, _, a5⟩ := post_false_iff.1 this
    simp only at a1 a2 a5
    subst a1
    refine ⟨⟨k', x2, buf'⟩, ?_, h2, a2, h3, ?_⟩
    · unfold compute
      unfold rawSet
      simp only [← hS]
      rw [if_pos (by omega)]
      simp only [bind_ok]
      rw [h1]
      simp only [bind_ok]
      rw [hr]
      simp only [bind_ok]
    · intro ix hix
      obtain ⟨b1, b2⟩ := a5 ix hix
      refine ⟨b1, fun hl h2s => ?_, fun hl h1s => ?_⟩
      · simp only; rw [b2 hl, h4 h2s]
      · simp only; rw [b2 hl, h5 h1s]
  · rintro m ⟨⟨k', x2, buf'⟩, pos'⟩ _ hm ⟨a1, a2, a3, a4, a5⟩
    simp only at a1 a2 a3 a4 a5
    subst a1 a3
    unfold outputStep
    split
    · rename_i hl
      simp only
      rw [raw_getD 0 (by omega)]
      simp only [bind_ok]
      unfold rawSet
      rw [if_pos (by omega)]
      simp only [bind_ok, post_ok]
      refine ⟨trivial, by simp [a2], by ring, fun hx => absurd hl (hx m (by omega)), ?_⟩
      intro ix hix
      rcases Nat.lt_succ_iff_lt_or_eq.1 hix with hix | rfl
      · rw [getD_set_ne (by omega)]
        exact a5 ix hix
      · rw [getD_set_self (by omega)]
        refine ⟨fun hn => absurd hl hn, fun _ => a4 (fun j hj hjl => ?_)⟩
        have : (j : Int) = ix := by rw [hjl, hl]
        omega
    · rename_i hl
      unfold combine
      have hmS : m * S + S ≤ S * o.x2.length := by
        have : (m + 1) * S ≤ o.x2.length * S := Nat.mul_le_mul_right _ (by omega)
        rw [Nat.mul_comm S]
        have e : (m + 1) * S = m * S + S := by ring
        omega
      rw [accumulate co.b k' h S x1 _ (by rw [hb]; exact hmS) (by omega)]
      simp only [bind_ok]
      unfold rawSet
      rw [if_pos (by omega)]
      simp only [bind_ok, post_ok]
      refine ⟨trivial, by simp [a2], by ring, fun hx => a4 (fun j hj => hx j (by omega)), ?_⟩
      intro ix hix
      rcases Nat.lt_succ_iff_lt_or_eq.1 hix with hix | rfl
      · rw [getD_set_ne (by omega)]
        exact a5 ix hix
      · rw [getD_set_self (by omega)]
        exact ⟨fun _ => rfl, fun hn => absurd hn hl⟩

end Verif.RK
