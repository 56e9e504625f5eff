import Verif.Extrap.Model
import Verif.Loop
import Mathlib.Order.Monotone.Basic
import Mathlib.Algebra.Order.Ring.Nat
import Mathlib.Tactic.Linarith
import Mathlib.Tactic.Ring
import Mathlib.Tactic.Positivity

/-! # Step sequences (C33) -/

namespace Verif.Extrap

open Verif.Res Verif.RK

/-- What `k` calls of `next` return, and the state after them. -/
def numbers {Q : Type} (sq : StepSeq Q) : Nat → Q → Res (List Nat × Q)
  | 0, q => .ok ([], q)
  | k + 1, q => do
    let r ← sq.next q
    let rest ← numbers sq k r.2
    .ok (r.1 :: rest.1, rest.2)

theorem numbers_succ {Q : Type} (sq : StepSeq Q) (k : Nat) (q : Q) :
    numbers sq (k + 1) q = sq.next q >>= fun r => numbers sq k r.2 >>= fun rest =>
      .ok (r.1 :: rest.1, rest.2) := rfl

/-- A sequence given by a closed form of its states, defined up to call number `B`. -/
theorem numbers_closed {Q : Type} {sq : StepSeq Q} {b : Nat → Nat} {st : Nat → Q} {B : Nat}
    (hok : ∀ i, i < B → sq.next (st i) = .ok (b i, st (i + 1)))
    (hub : sq.next (st B) = .error .ub) (k i : Nat) (hi : i ≤ B) :
    numbers sq k (st i) = if i + k ≤ B then .ok ((List.range' i k).map b, st (i + k))
      else .error .ub := by
  induction k generalizing i with
  | zero => rw [if_pos (by omega)]; rfl
  | succ k ih =>
    rw [numbers_succ]
    by_cases h : i < B
    · rw [hok i h, bind_ok]
      simp only
      rw [ih (i + 1) (by omega)]
      by_cases h2 : i + (k + 1) ≤ B
      · rw [if_pos h2, if_pos (by omega), bind_ok, List.range'_succ, List.map_cons]
        simp only
        rw [show i + 1 + k = i + (k + 1) by omega]
      · rw [if_neg h2, if_neg (by omega)]
        rfl
    · have : i = B := by omega
      subst this
      rw [hub, if_neg (by omega)]
      rfl

/-! ### Values -/

/-- `1, 2, 3, …` -/
def harmonicNo (i : Nat) : Nat := i + 1

/-- `1, 2, 4, …` -/
def rombergNo (i : Nat) : Nat := 2 ^ i

/-- `1, 2, 3, 4, 6, 8, 12, …`: `1`, then `2^j`, `3 * 2^(j-1)` alternating -/
def bulirschNo (i : Nat) : Nat :=
  if i = 0 then 1 else if i % 2 = 1 then 2 ^ ((i + 1) / 2) else 3 * 2 ^ (i / 2 - 1)

example : (List.range 9).map bulirschNo = [1, 2, 3, 4, 6, 8, 12, 16, 24] := by decide

theorem toIntVar_ok {n : Nat} (h : n ≤ intMax) : toIntVar n = .ok n := if_pos h
theorem toIntVar_ub {n : Nat} (h : intMax < n) : toIntVar n = .error .ub := if_neg (by omega)

/-- C33. After a reset, whatever was called before, `k` calls of the harmonic sequence give
`1, …, k`, unless the counter leaves the range of `int`. -/
theorem C33_harmonic (q k : Nat) :
    numbers harmonic k (harmonic.reset q)
      = if k < 2 ^ 31 - 1 then .ok ((List.range k).map harmonicNo, k + 1) else .error .ub := by
  have hok : ∀ i, i < intMax - 1 → harmonic.next ((fun i => i + 1) i)
      = .ok (harmonicNo i, (fun i => i + 1) (i + 1)) := by
    intro i hi
    simp only [harmonic]
    rw [toIntVar_ok (by omega)]
    rfl
  have hub : harmonic.next ((fun i => i + 1) (intMax - 1)) = .error .ub := by
    simp only [harmonic]
    rw [toIntVar_ub (by decide)]
    rfl
  have := numbers_closed hok hub k 0 (by omega)
  simp only [Nat.zero_add] at this
  rw [show harmonic.reset q = 1 from rfl, this, List.range_eq_range']
  have hm : intMax = 2 ^ 31 - 1 := by decide
  by_cases h : k < 2 ^ 31 - 1
  · rw [if_pos (show k ≤ intMax - 1 by omega), if_pos h]
  · rw [if_neg (show ¬ k ≤ intMax - 1 by omega), if_neg h]

/-- C33. After a reset `k` calls of the Romberg sequence give `1, 2, 4, …, 2^(k-1)`; more than
30 calls leave the range of `int`. -/
theorem C33_romberg (q k : Nat) :
    numbers romberg k (romberg.reset q)
      = if k ≤ 30 then .ok ((List.range k).map rombergNo, 2 ^ k) else .error .ub := by
  have hok : ∀ i, i < 30 → romberg.next ((fun i => 2 ^ i) i)
      = .ok (rombergNo i, (fun i => 2 ^ i) (i + 1)) := by
    intro i hi
    simp only [romberg]
    have h1 : 2 ^ (i + 1) ≤ 2 ^ 30 := Nat.pow_le_pow_right (by omega) (by omega)
    have e : 2 * 2 ^ i = 2 ^ (i + 1) := by rw [pow_succ, mul_comm]
    rw [toIntVar_ok (by rw [e]; exact h1.trans (by decide)), e]
    rfl
  have hub : romberg.next ((fun i => 2 ^ i) 30) = .error .ub := by
    simp only [romberg]
    rw [toIntVar_ub (by decide)]
    rfl
  have := numbers_closed hok hub k 0 (by omega)
  simp only [Nat.zero_add, pow_zero] at this
  rw [show romberg.reset q = 1 from rfl, this, List.range_eq_range']

/-- State of the Bulirsch sequence after `i` calls. -/
def bulirschSt (i : Nat) : BulirschSt :=
  ⟨i, if i < 2 then 1 else 3 * 2 ^ (i / 2 - 1), 2 ^ (i / 2 + 1)⟩

/-- C33. After a reset `k` calls of the Bulirsch sequence give `1, 2, 3, 4, 6, 8, 12, …`; more
than 59 calls leave the range of `int`. -/
theorem C33_bulirsch (q : BulirschSt) (k : Nat) :
    numbers bulirsch k (bulirsch.reset q)
      = if k ≤ 59 then .ok ((List.range k).map bulirschNo, bulirschSt k) else .error .ub := by
  have hok : ∀ i, i < 59 → bulirsch.next (bulirschSt i) = .ok (bulirschNo i, bulirschSt (i + 1)) := by
    have : (List.range 59).all (fun i => decide (bulirsch.next (bulirschSt i)
        = .ok (bulirschNo i, bulirschSt (i + 1)))) = true := by decide +kernel
    intro i hi
    have := List.all_eq_true.1 this i (List.mem_range.2 hi)
    exact of_decide_eq_true this
  have hub : bulirsch.next (bulirschSt 59) = .error .ub := by decide +kernel
  have := numbers_closed hok hub k 0 (by omega)
  simp only [Nat.zero_add] at this
  rw [show bulirsch.reset q = bulirschSt 0 from rfl, this, List.range_eq_range']

/-! ### Growth -/

theorem harmonicNo_strictMono : StrictMono harmonicNo := fun _ _ h => Nat.succ_lt_succ h
theorem rombergNo_strictMono : StrictMono rombergNo :=
  fun _ _ h => Nat.pow_lt_pow_right (by omega) h

theorem bulirschNo_strictMono : StrictMono bulirschNo := by
  apply strictMono_nat_of_lt_succ
  intro i
  unfold bulirschNo
  rcases Nat.even_or_odd' i with ⟨j, rfl | rfl⟩
  · rcases j with _ | j
    · decide
    · rw [if_neg (by omega), if_neg (by omega), if_neg (by omega), if_pos (by omega),
        show 2 * (j + 1) / 2 - 1 = j by omega, show (2 * (j + 1) + 1 + 1) / 2 = j + 2 by omega,
        pow_add]
      have : 0 < 2 ^ j := by positivity
      omega
  · rw [if_neg (by omega), if_pos (by omega), if_neg (by omega), if_neg (by omega),
      show (2 * j + 1 + 1) / 2 = j + 1 by omega, show j + 1 - 1 = j by omega, pow_succ]
    have : 0 < 2 ^ j := by positivity
    omega

/-- A sequence as the extrapolator needs it: up to `B` calls after a reset return the values
`b 0 < b 1 < …` of positive integers. -/
structure Gives {Q : Type} (sq : StepSeq Q) (b : Nat → Nat) (B : Nat) : Prop where
  mono : StrictMono b
  pos : 0 < b 0
  ok : ∀ q k, k ≤ B → ∃ q', numbers sq k (sq.reset q) = .ok ((List.range k).map b, q')

theorem Gives.le {Q : Type} {sq : StepSeq Q} {b : Nat → Nat} {B : Nat} (h : Gives sq b B) (i : Nat) :
    i + 1 ≤ b i := by
  induction i with
  | zero => exact h.pos
  | succ i ih =>
    have : b i < b (i + 1) := h.mono (Nat.lt_succ_self i)
    omega

theorem gives_harmonic : Gives harmonic harmonicNo (2 ^ 31 - 2) :=
  ⟨harmonicNo_strictMono, by decide, fun q k hk => ⟨_, by rw [C33_harmonic, if_pos (by omega)]⟩⟩

theorem gives_romberg : Gives romberg rombergNo 30 :=
  ⟨rombergNo_strictMono, by decide, fun q k hk => ⟨_, by rw [C33_romberg, if_pos hk]⟩⟩

theorem gives_bulirsch : Gives bulirsch bulirschNo 59 :=
  ⟨bulirschNo_strictMono, by decide, fun q k hk => ⟨_, by rw [C33_bulirsch, if_pos hk]⟩⟩

/-- C33. Whatever the three sequences return in `k` calls after a reset is strictly increasing,
positive, and the `i`-th number is at least `i` (from 1). -/
theorem C33_increasing (k : Nat) (l : List Nat)
    (h : (∃ q q', numbers harmonic k (harmonic.reset q) = .ok (l, q')) ∨
      (∃ q q', numbers romberg k (romberg.reset q) = .ok (l, q')) ∨
      (∃ q q', numbers bulirsch k (bulirsch.reset q) = .ok (l, q'))) :
    l.length = k ∧ l.Pairwise (· < ·) ∧ ∀ i (hi : i < l.length), i + 1 ≤ l[i] := by
  have key : ∀ {Q : Type} {sq : StepSeq Q} {b : Nat → Nat} {B : Nat}, Gives sq b B →
      l = (List.range k).map b →
      l.length = k ∧ l.Pairwise (· < ·) ∧ ∀ i (hi : i < l.length), i + 1 ≤ l[i] := by
    intro Q sq b B hg hl
    subst hl
    refine ⟨by simp, ?_, ?_⟩
    · rw [List.pairwise_map]
      exact List.pairwise_lt_range.imp (fun h => hg.mono h)
    · intro i hi
      simp only [List.getElem_map, List.getElem_range]
      exact hg.le i
  rcases h with ⟨q, q', h⟩ | ⟨q, q', h⟩ | ⟨q, q', h⟩
  · rw [C33_harmonic] at h
    split at h
    · exact key gives_harmonic (by cases h; rfl)
    · cases h
  · rw [C33_romberg] at h
    split at h
    · exact key gives_romberg (by cases h; rfl)
    · cases h
  · rw [C33_bulirsch] at h
    split at h
    · exact key gives_bulirsch (by cases h; rfl)
    · cases h

example : numbers bulirsch 7 (bulirsch.reset ⟨5, 6, 8⟩)
    = .ok ([1, 2, 3, 4, 6, 8, 12], ⟨7, 12, 16⟩) := by decide +kernel

theorem loop_next {Q : Type} (sq : StepSeq Q) (k : Nat) (q : Q) (i : Nat) :
    loopFrom (fun _ q => sq.next q >>= fun r => .ok r.2) k i q
      = numbers sq k q >>= fun r => .ok r.2 := by
  induction k generalizing q i with
  | zero => rfl
  | succ k ih =>
    rw [numbers_succ, loopFrom]
    cases h : sq.next q with
    | error e => rfl
    | ok r =>
      simp only [bind_ok]
      rw [ih]
      cases numbers sq k r.2 <;> rfl

theorem numbers_append {Q : Type} (sq : StepSeq Q) (k m : Nat) (q : Q) :
    numbers sq (k + m) q = numbers sq k q >>= fun r => numbers sq m r.2 >>= fun r' =>
      .ok (r.1 ++ r'.1, r'.2) := by
  induction k generalizing q with
  | zero =>
    rw [Nat.zero_add]
    show _ = (Except.ok ([], q) : Res _) >>= _
    rw [bind_ok]
    cases numbers sq m q <;> rfl
  | succ k ih =>
    rw [show k + 1 + m = (k + m) + 1 by omega, numbers_succ, numbers_succ]
    cases sq.next q with
    | error e => rfl
    | ok r =>
      simp only [bind_ok]
      rw [ih]
      cases numbers sq k r.2 with
      | error e => rfl
      | ok r1 =>
        simp only [bind_ok]
        cases numbers sq m r1.2 <;> rfl

theorem Gives.next {Q : Type} {sq : StepSeq Q} {b : Nat → Nat} {B : Nat} (h : Gives sq b B)
    (q : Q) (k : Nat) (hk : k < B) :
    ∃ q1 q2, numbers sq k (sq.reset q) = .ok ((List.range k).map b, q1) ∧
      sq.next q1 = .ok (b k, q2) ∧
      numbers sq (k + 1) (sq.reset q) = .ok ((List.range (k + 1)).map b, q2) := by
  obtain ⟨q1, h1⟩ := h.ok q k (by omega)
  obtain ⟨q2, h2⟩ := h.ok q (k + 1) (by omega)
  refine ⟨q1, q2, h1, ?_, h2⟩
  have h3 := numbers_append sq k 1 (sq.reset q)
  rw [h2, h1, bind_ok, numbers_succ] at h3
  cases h4 : sq.next q1 with
  | error e => rw [h4] at h3; cases h3
  | ok r =>
    rw [h4] at h3
    simp only [bind_ok, numbers, List.range_succ, List.map_append, List.map_cons, List.map_nil] at h3
    injection h3 with h3
    have e1 := (Prod.mk.inj h3).1
    have e2 := (Prod.mk.inj h3).2
    have e3 := List.append_cancel_left e1
    simp only [List.cons.injEq, and_true] at e3
    rw [e3, e2]

/-- C33. The stage array allocated by the extrapolator has as many places as the last number of
the sequence, at least as many as there are stages. -/
theorem C33_size {Q : Type} {sq : StepSeq Q} {b : Nat → Nat} {B : Nat} (h : Gives sq b B)
    (K : Nat) (hK : 1 ≤ K) (hB : K ≤ B) (q : Q) :
    ∃ q', computeTsize sq K q = .ok (b (K - 1), q') ∧ K ≤ b (K - 1) := by
  obtain ⟨q1, q2, h1, h2, _⟩ := h.next q (K - 1) (by omega)
  refine ⟨q2, ?_, by have := h.le (K - 1); omega⟩
  unfold computeTsize loop
  rw [loop_next, Nat.sub_zero, h1, bind_ok, bind_ok]
  exact h2

example : Gives bulirsch bulirschNo 59 := gives_bulirsch

end Verif.Extrap
