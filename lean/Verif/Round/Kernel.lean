import Verif.RK.Kernel
import Verif.Driver.Tells

/-! # What a step of an explicit solver computes, operation by operation

No law of arithmetic is used here, so that the results apply to rounded operations. -/

set_option linter.unusedSectionVars false

namespace Verif.Round

open Verif.Res Verif.RK

section
variable {R V E : Type} [Zero R] [Add R] [Mul R] [DecidableEq R] [Zero V] [Add V] [SMul R V]

/-- Summands are added one after another, those with a zero coefficient are left out. -/
def accum (h : R) : List R → List V → V → V
  | a :: as, k :: ks, v => accum h as ks (if a ≠ 0 then v + (h * a) • k else v)
  | _, _, v => v

theorem accum_snoc (h : R) (as : List R) (ks : List V) (k : V) (v : V) (hl : ks.length < as.length) :
    accum h as (ks ++ [k]) v = if as.getD ks.length 0 ≠ 0 then accum h as ks v + (h * as.getD ks.length 0) • k
      else accum h as ks v := by
  induction ks generalizing as v with
  | nil =>
    cases as with
    | nil => simp at hl
    | cons a as =>
      simp only [List.nil_append, List.length_nil, List.getD_cons_zero, accum]
  | cons k' ks ih =>
    cases as with
    | nil => simp at hl
    | cons a as =>
      simp only [List.cons_append, accum, List.length_cons, List.getD_cons_succ]
      exact ih as _ (by simpa using hl)

/-- The first `n` stages -/
def stageList (co : Coefficients R) (rhs : R → V → V) (x : V) (t h : R) : Nat → List V
  | 0 => []
  | n + 1 => stageList co rhs x t h n ++ [if n = 0 then rhs t x
      else rhs (t + h * co.c.getD (n - 1) 0) (accum h (co.a.drop (n * (n - 1) / 2)) (stageList co rhs x t h n) x)]

theorem stageList_length (co : Coefficients R) (rhs : R → V → V) (x : V) (t h : R) (n : Nat) :
    (stageList co rhs x t h n).length = n := by
  induction n with
  | zero => rfl
  | succ n ih => simp [stageList, ih]

/-- The argument of the last of `n` stages -/
def lastArg (co : Coefficients R) (rhs : R → V → V) (x : V) (t h : R) (n : Nat) : V :=
  accum h (co.a.drop ((n - 1) * (n - 1 - 1) / 2)) (stageList co rhs x t h (n - 1)) x

/-- The inner loops of `compute` -/
theorem loop_accum (a : List R) (k : List V) (h : R) (n : Nat)
    (x1 : V) (pos : Nat) (ha : pos + n ≤ a.length) (hk : n ≤ k.length) :
    loop 0 n (fun i (s : V × Nat) => do
      let av ← raw a s.2
      if av ≠ 0 then do
        let ki ← raw k i
        .ok (s.1 + (h * av) • ki, s.2 + 1)
      else .ok (s.1, s.2 + 1)) (x1, pos) = .ok (accum h (a.drop pos) (k.take n) x1, pos + n) := by
  have := loop_post (lo := 0) (hi := n) (s := (x1, pos)) (E := fun _ => False)
    (f := fun i (s : V × Nat) => do
      let av ← raw a s.2
      if av ≠ 0 then do
        let ki ← raw k i
        .ok (s.1 + (h * av) • ki, s.2 + 1)
      else .ok (s.1, s.2 + 1))
    (fun m s => s = (accum h (a.drop pos) (k.take m) x1, pos + m))
    (Nat.zero_le _) (by
      cases a.drop pos <;> simp [accum]) ?_
  · obtain ⟨s, hr, h1⟩ := post_false_iff.1 this
    rw [hr, h1]
  · rintro i s _ hi rfl
    simp only
    rw [RK.raw_getD 0 (by omega)]
    simp only [bind_ok]
    have ht : k.take (i + 1) = k.take i ++ [k.getD i 0] := by
      rw [List.take_add_one, List.getD_eq_getElem?_getD, List.getElem?_eq_getElem (by omega)]
      rfl
    have hlen : (k.take i).length = i := by rw [List.length_take]; omega
    have hg : (a.drop pos).getD i 0 = a.getD (pos + i) 0 := by
      rw [List.getD_eq_getElem?_getD, List.getElem?_drop, List.getD_eq_getElem?_getD]
    have hs := accum_snoc h (a.drop pos) (k.take i) (k.getD i 0) x1 (by rw [hlen, List.length_drop]; omega)
    rw [hlen, hg] at hs
    split
    · rename_i hz
      rw [RK.raw_getD 0 (by omega)]
      simp only [bind_ok, post_ok]
      rw [ht, hs, if_pos hz]
      rfl
    · rename_i hz
      simp only [post_ok]
      rw [ht, hs, if_neg hz]
      rfl

/-- `compute`, operation by operation. -/
theorem compute_ops (o : Output V) (co : Coefficients R) (rhs : R → V → V) (x1 : V) (t1 h : R)
    (hs : co.Sizes o.k.length o.x2.length) :
    ∃ o', compute o co rhs x1 t1 h = .ok o' ∧ o'.k = stageList co rhs x1 t1 h o.k.length ∧
      o'.x2.length = o.x2.length ∧ (∀ ix < o.x2.length, (ix : Int) ≠ co.lastK →
        o'.x2.getD ix 0 = accum h (co.b.drop (ix * o.k.length)) o'.k x1) ∧
      (2 ≤ o.k.length → ∀ ix < o.x2.length, (ix : Int) = co.lastK → o'.x2.getD ix 0 = lastArg co rhs x1 t1 h o.k.length) := by
  have hpos := hs.pos
  have hb := hs.b
  have stages := loop_post (lo := 1) (hi := o.k.length) (f := stageStep co rhs x1 t1 h)
    (s := ({ o with k := o.k.set 0 (rhs t1 x1) }, 0)) (E := fun _ => False)
    (fun m s => s.1.k.length = o.k.length ∧ s.2 = m * (m - 1) / 2 ∧ s.1.x2 = o.x2 ∧
      s.1.k.take m = stageList co rhs x1 t1 h m ∧ (2 ≤ m → s.1.buf = lastArg co rhs x1 t1 h m))
    hpos ⟨by simp, rfl, rfl, by
      cases hk : o.k with
      | nil => rw [hk] at hpos; simp at hpos
      | cons a l => simp [stageList], by omega⟩ (by
      rintro m ⟨⟨k, x2, buf⟩, pos⟩ hm1 hm ⟨h1, h2, h3, h4, -⟩
      simp only at h1 h2 h3 h4
      subst h2 h3
      unfold stageStep stageArg
      have htri := RK.tri_le hm
      simp only
      rw [loop_accum co.a k h m x1 (m * (m - 1) / 2) (by rw [hs.a]; omega) (by omega)]
      simp only [bind_ok]
      rw [RK.raw_getD 0 (by have := hs.c; omega)]
      simp only [bind_ok]
      unfold rawSet
      rw [if_pos (by omega)]
      simp only [bind_ok, post_ok]
      refine ⟨by simp [h1], (RK.tri_succ m).symm, trivial, ?_, fun _ => by
        unfold lastArg
        rw [Nat.add_sub_cancel, h4]⟩
      rw [stageList, if_neg (by omega), ← h4, List.take_add_one, List.take_set_of_le (le_refl m)]
      congr 1
      rw [List.getElem?_set_self (by omega)]
      rfl)
  obtain ⟨⟨o1, pos⟩, e1, k1, -, k3, k4, k5⟩ := post_false_iff.1 stages
  simp only at k1 k3 k4 k5
  rw [List.take_of_length_le (by omega)] at k4
  have outs := loop_post (lo := 0) (hi := o.x2.length) (f := outputStep co o.k.length x1 h)
    (s := (o1, 0)) (E := fun _ => False)
    (fun m s => s.1.k = o1.k ∧ s.1.x2.length = o.x2.length ∧ s.2 = m * o.k.length ∧
      (∀ ix, ix < m → (ix : Int) ≠ co.lastK → s.1.x2.getD ix 0 = accum h (co.b.drop (ix * o.k.length)) o1.k x1) ∧
      (2 ≤ o.k.length → ((∀ ix, ix < m → (ix : Int) ≠ co.lastK) → s.1.buf = lastArg co rhs x1 t1 h o.k.length) ∧
        ∀ ix, ix < m → (ix : Int) = co.lastK → s.1.x2.getD ix 0 = lastArg co rhs x1 t1 h o.k.length))
    (Nat.zero_le _) ⟨rfl, by rw [k3], by simp, by omega, fun h2 => ⟨fun _ => k5 h2, by omega⟩⟩ (by
      rintro m ⟨⟨k', x2, buf'⟩, pos'⟩ _ hm ⟨a1, a2, a3, a5, a6⟩
      simp only at a1 a2 a3 a5 a6
      subst a1 a3
      unfold outputStep
      split
      · rename_i hl
        simp only
        rw [RK.raw_getD 0 (by omega)]
        simp only [bind_ok]
        unfold rawSet
        rw [if_pos (by omega)]
        simp only [bind_ok, post_ok]
        refine ⟨trivial, by simp [a2], by ring, ?_, fun h2 => ⟨fun hno => absurd hl (hno m (by omega)), ?_⟩⟩
        · intro ix hix hne
          rcases Nat.lt_succ_iff_lt_or_eq.1 hix with hix | rfl
          · rw [RK.getD_set_ne (by omega)]
            exact a5 ix hix hne
          · exact absurd hl hne
        · intro ix hix he
          rcases Nat.lt_succ_iff_lt_or_eq.1 hix with hix | rfl
          · omega
          · rw [RK.getD_set_self (by omega)]
            exact (a6 h2).1 (fun j hj hc => by omega)
      · rename_i hl
        unfold combine
        have hmS : m * o.k.length + o.k.length ≤ o.k.length * o.x2.length := by
          have : (m + 1) * o.k.length ≤ o.x2.length * o.k.length := Nat.mul_le_mul_right _ (by omega)
          rw [Nat.mul_comm o.k.length]
          have e : (m + 1) * o.k.length = m * o.k.length + o.k.length := by ring
          omega
        simp only
        rw [loop_accum co.b o1.k h o.k.length x1 (m * o.k.length) (by rw [hb]; exact hmS) (by omega)]
        simp only [bind_ok]
        unfold rawSet
        rw [if_pos (by omega)]
        simp only [bind_ok, post_ok]
        refine ⟨trivial, by simp [a2], by ring, ?_, fun h2 => ⟨fun hno => (a6 h2).1 (fun j hj => hno j (by omega)), ?_⟩⟩
        · intro ix hix hne
          rcases Nat.lt_succ_iff_lt_or_eq.1 hix with hix | rfl
          · rw [RK.getD_set_ne (by omega)]
            exact a5 ix hix hne
          · rw [RK.getD_set_self (by omega), List.take_of_length_le (by omega)]
        · intro ix hix he
          rcases Nat.lt_succ_iff_lt_or_eq.1 hix with hix | rfl
          · rw [RK.getD_set_ne (by omega)]
            exact (a6 h2).2 ix hix he
          · exact absurd he hl)
  obtain ⟨⟨o2, pos2⟩, e2, l1, l2, -, l5, l6⟩ := post_false_iff.1 outs
  simp only at l1 l2 l5 l6
  refine ⟨o2, ?_, by rw [l1, k4], l2, fun ix hix hne => by rw [l5 ix hix hne, l1], fun h2 => (l6 h2).2⟩
  unfold compute rawSet
  rw [if_pos (by omega)]
  simp only [bind_ok]
  rw [e1]
  simp only [bind_ok]
  rw [e2]
  simp only [bind_ok]

/-- The state after one step of a method with one output -/
def opStep (co : Coefficients R) (rhs : R → V → V) (t h : R) (x : V) : V :=
  accum h co.b (stageList co rhs x t h (co.c.length + 1)) x

/-- The solver is set up for steps of the size `h`: it has not made one since the last `setInitialState`, or it has made them. -/
def Ready (m : Method R V E) (h : R) (s : FixedSt R V E) : Prop :=
  (s.out.k = [] ∧ s.hInit = h) ∨ (s.out.k.length = m.co.c.length + 1 ∧ s.out.x2.length = 1 ∧ s.h = some h)

/-- One step of OdeSolverExplicitRK without an event controller, operation by operation. -/
theorem doStep_ops {m : Method R V E} (hec : m.ec = none) (hl : m.co.lastK = -1)
    (hs : m.co.Sizes (m.co.c.length + 1) 1) {h : R} {s : FixedSt R V E} (hr : Ready m h s) :
    ∃ s', s.doStep m = .ok s' ∧ s'.t = s.t + h ∧ s'.x = opStep m.co m.rhs s.t h s.x ∧ Ready m h s' := by
  obtain ⟨si, hsi, i1, i2, i3, i4, i5⟩ : ∃ si, ({ s with log := .pre s.h :: s.log } : FixedSt R V E).initStep m = si ∧
      si.t = s.t ∧ si.x = s.x ∧ si.h = some h ∧ si.out.k.length = m.co.c.length + 1 ∧ si.out.x2.length = 1 := by
    refine ⟨_, rfl, ?_⟩
    unfold FixedSt.initStep
    rcases hr with ⟨h1, h2⟩ | ⟨h1, h2, h3⟩
    · rw [if_pos (by simp [h1])]
      exact ⟨rfl, rfl, by rw [← h2], by simp [Output.mk'], by simp [Output.mk']⟩
    · rw [if_neg (by
        cases hk : s.out.k with
        | nil => rw [hk] at h1; simp at h1
        | cons => simp)]
      exact ⟨rfl, rfl, h3, h1, h2⟩
  obtain ⟨o', c1, c2, c3, c4, -⟩ := compute_ops si.out m.co m.rhs si.x si.t h (by rw [i4, i5]; exact hs)
  unfold FixedSt.doStep
  simp only [hsi, ecStart, hec, bind_ok, i3, readH]
  rw [c1]
  simp only [bind_ok, ecEnd, hec]
  rw [RK.raw_getD 0 (by omega)]
  simp only [bind_ok]
  unfold rawSet
  rw [if_pos (by omega)]
  simp only [bind_ok]
  refine ⟨_, rfl, by rw [i1], ?_, .inr ⟨by rw [c2, stageList_length, i4], by simp [c3, i5], rfl⟩⟩
  have := c4 0 (by omega) (by rw [hl]; decide)
  simp only [Nat.zero_mul, List.drop_zero] at this
  simp only [this, c2, i4, i1, i2, opStep]

end

end Verif.Round
