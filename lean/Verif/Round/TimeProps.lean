import Verif.Round.Kernel
import Verif.Round.Model
import Verif.Witness
import Mathlib.Algebra.Order.Archimedean.Basic
import Mathlib.Data.Rat.Floor
import Mathlib.Tactic.Linarith
import Mathlib.Tactic.Positivity

/-! # C125: the end of a run with fixed steps when arithmetic rounds -/

set_option linter.unusedSectionVars false

namespace Verif.Round

open Verif.Res Verif.RK Verif.Driver

section
variable {K V E : Type} [Field K] [LinearOrder K] [IsStrictOrderedRing K] {r : K → K} {u : K}

theorem Rounds.abs_le (hr : Rounds r u) (x : K) : |r x| ≤ (1 + u) * |x| := by
  have h1 := hr.le x
  have h2 := abs_sub_abs_le_abs_sub (r x) x
  linarith

/-- The clock of a solver with steps of the size `h` -/
theorem clock [Archimedean K] (hr : Rounds r u) {t d h : K} (hh : 0 < h) (hd : 0 ≤ d) (hu : 4 * (u * (|t| + d + h)) ≤ h) {τ : Nat → K}
    (h0 : τ 0 = t) (hτ : ∀ k, τ (k + 1) = r (τ k + h)) :
    ∃ N, 1 ≤ N ∧ (∀ k, 0 < k → k < N → τ k < r (t + d)) ∧ r (t + d) ≤ τ N ∧
      ∀ k ≤ N, |τ k - (t + k * h)| ≤ 2 * k * (u * (|t| + d + h)) ∧ t ≤ τ k ∧ τ k ≤ t + d + h + 3 * (u * (|t| + d + h)) := by
  set ω := u * (|t| + d + h) with hω
  have hu0 := hr.nonneg
  have hB : 0 ≤ |t| + d := add_nonneg (abs_nonneg t) hd
  have hω0 : 0 ≤ ω := mul_nonneg hu0 (by linarith)
  have hu4 : u ≤ 1 / 4 := by
    have h1 : u * h ≤ ω := by rw [hω]; exact mul_le_mul_of_nonneg_left (by linarith) hu0
    by_contra hc
    have := mul_lt_mul_of_pos_right (not_le.1 hc) hh
    linarith
  have hle : r (t + d) ≤ t + d + ω := by
    have h1 := (abs_le.1 (hr.le (t + d))).2
    have h2 : u * |t + d| ≤ ω := by
      rw [hω]
      refine mul_le_mul_of_nonneg_left ?_ hu0
      have := abs_add_le t d
      rw [abs_of_nonneg hd] at this
      linarith
    linarith
  have habs : |r (t + d)| ≤ 5 / 4 * (|t| + d) := by
    have h1 := hr.abs_le (t + d)
    have h2 := abs_add_le t d
    rw [abs_of_nonneg hd] at h2
    have h3 : (1 + u) * |t + d| ≤ 5 / 4 * (|t| + d) := mul_le_mul (by linarith) h2 (abs_nonneg _) (by norm_num)
    linarith
  -- one tick
  have tick : ∀ k, t ≤ τ k → (τ k = t ∨ τ k < r (t + d)) → |τ (k + 1) - (τ k + h)| ≤ 2 * ω := by
    intro k h1 h2
    rw [hτ k]
    refine (hr.le _).trans ?_
    have h3 : |τ k + h| ≤ 2 * (|t| + d + h) := by
      have h4 : |τ k| ≤ 5 / 4 * (|t| + d) := by
        rcases h2 with h2 | h2
        · rw [h2]; linarith [abs_nonneg t]
        · rw [abs_le]
          have h5 := (abs_le.1 habs).2
          have h6 := neg_abs_le t
          constructor <;> linarith [abs_nonneg t]
      have := abs_add_le (τ k) h
      rw [abs_of_pos hh] at this
      linarith
    calc u * |τ k + h| ≤ u * (2 * (|t| + d + h)) := mul_le_mul_of_nonneg_left h3 hu0
      _ = 2 * ω := by rw [hω]; ring
  have run : ∀ k, (∀ j, 0 < j → j < k → τ j < r (t + d)) →
      |τ k - (t + k * h)| ≤ 2 * k * ω ∧ t ≤ τ k ∧ t + k * (h / 2) ≤ τ k ∧ τ k ≤ t + d + h + 3 * ω := by
    intro k
    induction k with
    | zero => intro _; rw [h0]; simp; linarith
    | succ k ih =>
      intro hk
      obtain ⟨a1, a2, a3, a4⟩ := ih (fun j hj hjk => hk j hj (by omega))
      have hcase : τ k = t ∨ τ k < r (t + d) := by
        rcases Nat.eq_zero_or_pos k with rfl | hp
        · exact .inl h0
        · exact .inr (hk k hp (by omega))
      have h1 := tick k a2 hcase
      have h2 := abs_le.1 h1
      push_cast
      refine ⟨?_, by linarith, by linarith, ?_⟩
      · have e : τ (k + 1) - (t + (k + 1) * h) = (τ (k + 1) - (τ k + h)) + (τ k - (t + k * h)) := by ring
        rw [e]
        refine (abs_add_le _ _).trans ?_
        linarith
      · rcases hcase with hc | hc <;> linarith
  have hex : ∃ k, 0 < k ∧ r (t + d) ≤ τ k := by
    by_contra hno
    push Not at hno
    obtain ⟨n, hn⟩ := exists_nat_gt ((d + h + 3 * ω) / (h / 2))
    rw [div_lt_iff₀ (by linarith)] at hn
    obtain ⟨-, -, a3, a4⟩ := run n (fun j hj _ => hno j hj)
    linarith
  obtain ⟨hN1, hN2⟩ := Nat.find_spec hex
  refine ⟨Nat.find hex, hN1, fun k h1 h2 => ?_, hN2, fun k hk => ?_⟩
  · have := Nat.find_min hex h2
    push Not at this
    exact this h1
  · obtain ⟨a1, a2, -, a4⟩ := run k (fun j h1 h2 => by
      have := Nat.find_min hex (lt_of_lt_of_le h2 hk)
      push Not at this
      exact this h1)
    exact ⟨a1, a2, a4⟩

variable [Zero V] [Add V] [SMul (Rd r) V]

/-- The steps of a solver that is ready -/
theorem steps_ops {m : Method (Rd r) V E} (hec : m.ec = none) (hl : m.co.lastK = -1) (hs : m.co.Sizes (m.co.c.length + 1) 1)
    {h : Rd r} {s : FixedSt (Rd r) V E} (hs0 : Ready m h s) :
    ∃ st : Nat → FixedSt (Rd r) V E, st 0 = s ∧ (∀ k, Ready m h (st k)) ∧ ∀ k, (st k).doStep m = .ok (st (k + 1)) ∧
      (st (k + 1)).t = (st k).t + h ∧ (st (k + 1)).x = opStep m.co m.rhs (st k).t h (st k).x := by
  let next : FixedSt (Rd r) V E → FixedSt (Rd r) V E := fun q => match q.doStep m with | .ok q' => q' | .error _ => q
  let st : Nat → FixedSt (Rd r) V E := fun k => Nat.rec s (fun _ q => next q) k
  have hnext : ∀ q, Ready m h q → q.doStep m = .ok (next q) ∧ (next q).t = q.t + h ∧
      (next q).x = opStep m.co m.rhs q.t h q.x ∧ Ready m h (next q) := by
    intro q hq
    obtain ⟨q', a1, a2, a3, a4⟩ := doStep_ops hec hl hs hq
    have e : next q = q' := by simp only [next, a1]
    rw [e]
    exact ⟨a1, a2, a3, a4⟩
  have hR : ∀ k, Ready m h (st k) := by
    intro k
    induction k with
    | zero => exact hs0
    | succ k ih => exact (hnext _ ih).2.2.2
  exact ⟨st, rfl, hR, fun k => ⟨(hnext _ (hR k)).1, (hnext _ (hR k)).2.1, (hnext _ (hR k)).2.2.1⟩⟩

theorem erk_doStep {m : Method (Rd r) V E} {s s' : FixedSt (Rd r) V E} (h : s.doStep m = .ok s') :
    ∃ ns, (erk m).doStep s = (ns, .ok s') := ⟨erkNotes s', by simp only [erk, h]⟩

/-- A run with given steps: it returns after the first one that reaches the end time, and the observers are told exactly the times
and states after the steps. -/
theorem ops_run {m : Method (Rd r) V E} {st : Nat → FixedSt (Rd r) V E} (bst : ∀ k, (st k).doStep m = .ok (st (k + 1)))
    (c : Outputs) (hc : c.Start) (d : Rd r) {N : Nat} (n1 : 1 ≤ N) (n2 : ∀ k, 0 < k → k < N → (st k).t < (st 0).t + d)
    (n3 : (st 0).t + d ≤ (st N).t) :
    ∃ evs, solveOde (erk m) c d N (st 0) = some (evs, .ok (st N)) ∧ (accepted evs).length = N ∧
      ∀ n, .note n ∈ evs → ∃ k ≤ N, n.time = (st k).t ∧ n.state = (st k).x := by
  obtain ⟨evs, hrun⟩ := chain_run (sv := erk m) c hc d N n1 st rfl (fun k _ => erk_doStep (bst k)) n2 n3
  obtain ⟨N', st', c1, c0, c2, c3, c4, c5, c6, c7, c8⟩ := run_samples (erk_tells m) c hc _ N (st 0) (st N) rfl evs hrun
  have same : ∀ k ≤ N', st' k = st k := by
    intro k
    induction k with
    | zero => intro _; rw [c2]
    | succ k ih =>
      intro hkN
      obtain ⟨ns, e1, -⟩ := c4 k hkN
      rw [ih (by omega)] at e1
      obtain ⟨ns', e2⟩ := erk_doStep (bst k)
      rw [e2] at e1
      injection e1 with _ e1
      injection e1 with e1
      exact e1.symm
  have hN : N' = N := by
    by_contra hne
    have h1 := n2 N' (by omega) (by omega)
    have h2 : (st 0).t + d ≤ (st' N').t := by
      rw [c3]
      exact n3
    rw [same N' le_rfl] at h2
    exact absurd h1 (not_lt.2 h2)
  subst hN
  refine ⟨evs, hrun, ?_, fun n hn => ?_⟩
  · have hN' := congrArg List.length c7
    rw [List.length_map, List.length_map, List.length_range] at hN'
    exact hN'
  · obtain ⟨k, hk, h1, h2⟩ := c8 n hn
    rw [same k hk] at h1 h2
    exact ⟨k, hk, h1, h2⟩

/-- C125. With rounding, `solveOde` returns for every explicit solver with fixed steps if the step is at least four times what is
lost in one addition, `ω = u (|t| + d + h)`: the number `N` of steps is that of the accepted samples, the time shown in the end
is `N h` after the beginning up to `2 N ω`, not before the end time as the program computes it, and at most a step and `3 ω` after
the one asked for. -/
theorem C125_returns_partial [Archimedean K] (hr : Rounds r u) (m : Method (Rd r) V E) (hec : m.ec = none)
    (hl : m.co.lastK = -1) (hs : m.co.Sizes (m.co.c.length + 1) 1) (t d h : K) (hh : 0 < h) (hd : 0 ≤ d)
    (hu : 4 * (u * (|t| + d + h)) ≤ h) (c : Outputs) (hc : c.Start) (s : FixedSt (Rd r) V E) (ht : s.t = ⟨t⟩)
    (hs0 : Ready m ⟨h⟩ s) :
    ∃ N s' evs, solveOde (erk m) c ⟨d⟩ N s = some (evs, .ok s') ∧ (accepted evs).length = N ∧
      s.t + ⟨d⟩ ≤ s'.t ∧ |s'.t.val - (t + N * h)| ≤ 2 * N * (u * (|t| + d + h)) ∧
      t + d - u * (|t| + d + h) ≤ s'.t.val ∧ s'.t.val ≤ t + d + h + 3 * (u * (|t| + d + h)) ∧
      (N : K) * h ≤ 2 * d + 4 * h := by
  obtain ⟨st, b0, bR, bst⟩ := steps_ops hec hl hs hs0
  obtain ⟨N, n1, n2, n3, n4⟩ := clock hr hh hd hu (τ := fun k => (st k).t.val) (by simp only [b0, ht])
    (fun k => by simp only [(bst k).2.1, Rd.val_add])
  obtain ⟨evs, hrun, hlen, -⟩ := ops_run (fun k => (bst k).1) c hc ⟨d⟩ n1
    (fun k h1 h2 => by
      have := n2 k h1 h2
      rw [b0, ht]
      exact this)
    (by
      rw [b0, ht]
      exact n3)
  rw [b0] at hrun
  obtain ⟨a1, a2, a3⟩ := n4 N le_rfl
  have hlow : t + d - u * (|t| + d + h) ≤ r (t + d) := by
    have h1 := (abs_le.1 (hr.le (t + d))).1
    have h2 : u * |t + d| ≤ u * (|t| + d + h) := by
      refine mul_le_mul_of_nonneg_left ?_ hr.nonneg
      have := abs_add_le t d
      rw [abs_of_nonneg hd] at this
      linarith
    linarith
  refine ⟨N, st N, evs, hrun, hlen, ?_, a1, hlow.trans n3, a3, ?_⟩
  · rw [ht]
    exact n3
  · have h1 := (abs_le.1 a1).1
    have hN0 : (0 : K) ≤ N := Nat.cast_nonneg N
    have h2 : (N : K) * (4 * (u * (|t| + d + h))) ≤ N * h := mul_le_mul_of_nonneg_left hu hN0
    linarith

/-- C125 is false without the condition on the step: if it is lost in the addition to the time, `solveOde` makes steps forever. -/
theorem C125_absorbed (m : Method (Rd r) V E) (hec : m.ec = none)
    (hl : m.co.lastK = -1) (hs : m.co.Sizes (m.co.c.length + 1) 1) (t d h : K) (hrt : r (t + h) = t) (hd : t < r (t + d))
    (c : Outputs) (hc : c.Start) (s : FixedSt (Rd r) V E) (ht : s.t = ⟨t⟩) (hs0 : Ready m ⟨h⟩ s) (fuel : Nat) :
    solveOde (erk m) c ⟨d⟩ fuel s = none := by
  have key : ∀ fuel s, s.t = ⟨t⟩ → Ready m ⟨h⟩ s → runLoop (erk m) (⟨r (t + d)⟩ : Rd r) fuel s = none := by
    intro fuel
    induction fuel with
    | zero => intro _ _ _; rfl
    | succ fuel ih =>
      intro s h1 h2
      obtain ⟨s', a1, a2, -, a4⟩ := doStep_ops hec hl hs h2
      have h3 : s'.t = ⟨t⟩ := by
        rw [a2, h1]
        exact Rd.ext' hrt
      obtain ⟨ns, e⟩ := erk_doStep a1
      unfold runLoop
      rw [e]
      have hlt : (erk m).time s' < (⟨r (t + d)⟩ : Rd r) := by
        show s'.t < _
        rw [h3]
        exact hd
      simp only
      rw [if_pos hlt, ih s' h3 a4]
      rfl
  unfold solveOde
  rw [if_pos (show (erk m).hasRhs s = true from rfl), initOutput_ok c hc]
  have e : (erk m).time s + (⟨d⟩ : Rd r) = ⟨r (t + d)⟩ := by
    show s.t + _ = _
    rw [ht]
    rfl
  simp only [e, key fuel s ht hs0]

end

/-! ### `double` -/

section
variable {K : Type} [Field K] [LinearOrder K] [IsStrictOrderedRing K] [FloorRing K]

theorem nearest_le (z : K) : |(nearest z : K) - z| ≤ 1 / 2 := by
  have h1 := Int.floor_le z
  have h2 := Int.lt_floor_add_one z
  unfold nearest
  rw [abs_le]
  split
  · constructor <;> linarith
  · split
    · push_cast; constructor <;> linarith
    · split
      · constructor <;> linarith
      · push_cast; constructor <;> linarith

/-- Rounding to `p` binary digits has relative error at most `2^-p`. -/
theorem binary_rounds (p : Nat) : Rounds (binary p : K → K) (1 / 2 ^ p) := by
  refine ⟨by positivity, fun x => ?_⟩
  by_cases hx : x = 0
  · subst hx
    simp [binary, nearest]
  · have hpos : 0 < |x| := abs_pos.2 hx
    have h2 : (0 : K) < 2 := by norm_num
    set e := Int.log 2 |x| + 1 - (p : Int) with he
    have hE : (0 : K) < 2 ^ e := zpow_pos h2 e
    have h1 : binary p x - x = ((nearest (x / (2 : K) ^ e) : K) - x / (2 : K) ^ e) * (2 : K) ^ e := by
      rw [sub_mul, div_mul_cancel₀ x hE.ne']
      rfl
    have h3 : (2 : K) ^ e = 2 * (1 / 2 ^ p) * 2 ^ Int.log 2 |x| := by
      rw [he, zpow_sub₀ h2.ne', zpow_add₀ h2.ne', zpow_one, zpow_natCast]
      field_simp
    have h4 : (2 : K) ^ Int.log 2 |x| ≤ |x| := by
      have := Int.zpow_log_le_self (b := 2) (R := K) (by norm_num) hpos
      exact_mod_cast this
    rw [h1, abs_mul, abs_of_pos hE]
    calc |(nearest (x / (2 : K) ^ e) : K) - x / (2 : K) ^ e| * 2 ^ e ≤ 1 / 2 * 2 ^ e :=
          mul_le_mul_of_nonneg_right (nearest_le _) hE.le
      _ = 1 / 2 ^ p * 2 ^ Int.log 2 |x| := by rw [h3]; ring
      _ ≤ 1 / 2 ^ p * |x| := mul_le_mul_of_nonneg_left h4 (by positivity)

end

/-- The oscillator `x' = v, v' = -x` with the classical Runge-Kutta method, in rational numbers with 53 binary digits -/
def oscillator : Method (Rd (binary 53 : ℚ → ℚ)) (Vec (binary 53 : ℚ → ℚ) 2) Unit where
  co := round (binary 53) rk4
  rhs _ x := fun i => if i = 0 then x 1 else -x 0
  ec := none

def oscillatorAt (t h : ℚ) : FixedSt (Rd (binary 53 : ℚ → ℚ)) (Vec (binary 53 : ℚ → ℚ) 2) Unit where
  t := ⟨t⟩
  x := fun i => if i = 0 then ⟨1⟩ else ⟨0⟩
  h := none
  out := Output.mkEmpty
  hInit := ⟨h⟩
  ec := ()
  log := []

theorem run_of_test {K V S : Type} {x : Option (List (Ev K V) × Res S)} {p : List (Ev K V) → S → Prop}
    [∀ a b, Decidable (p a b)]
    (h : (match x with | some (evs, .ok s') => decide (p evs s') | _ => false) = true) :
    ∃ s' evs, x = some (evs, .ok s') ∧ p evs s' := by
  cases x with
  | none => cases h
  | some q =>
    obtain ⟨evs, q⟩ := q
    cases q with
    | error e => cases h
    | ok s' => exact ⟨s', evs, rfl, of_decide_eq_true h⟩

/-- C125 is false: a run over one unit of time with the step `0.1`, in `double`, makes eleven steps and not ten, and ends a step too
late. -/
theorem C125_eleven_false :
    ∃ s' evs, solveOde (erk oscillator) ⟨none, none, none⟩ ⟨1⟩ 11 (oscillatorAt 0 (binary 53 (1 / 10))) = some (evs, .ok s') ∧
      (accepted evs).length = 11 ∧ s'.t.val = 4953959590107545 / 4503599627370496 :=
  run_of_test (p := fun evs (s' : FixedSt (Rd (binary 53 : ℚ → ℚ)) (Vec (binary 53 : ℚ → ℚ) 2) Unit) => (accepted evs).length = 11 ∧ s'.t.val = 4953959590107545 / 4503599627370496)
    (by decide +kernel)

/-- C125 is false: at the time `10^10` steps of `10^-7` are lost, in `double`, and `solveOde` never returns. -/
theorem C125_forever_false (fuel : Nat) :
    solveOde (erk oscillator) ⟨none, none, none⟩ ⟨1⟩ fuel (oscillatorAt (10 ^ 10) (binary 53 (1 / 10 ^ 7))) = none :=
  C125_absorbed oscillator rfl rfl ⟨by decide, by decide, by decide, by decide⟩ (10 ^ 10) 1 _ (by decide +kernel) (by decide +kernel)
    _ (by simp [Outputs.Start]) _ rfl (.inl ⟨rfl, rfl⟩) fuel

/-- A case for `C125_returns_partial`: the run of `C125_eleven_false` is as close to what was asked for as the theorem says. -/
example : ∃ N s' evs, solveOde (erk oscillator) ⟨none, none, none⟩ ⟨1⟩ N (oscillatorAt 0 (binary 53 (1 / 10))) = some (evs, .ok s') ∧
    (accepted evs).length = N ∧ s'.t.val ≤ 0 + 1 + binary 53 (1 / 10) + 3 * (1 / 2 ^ 53 * (|0| + 1 + binary 53 (1 / 10))) := by
  obtain ⟨N, s', evs, h1, h2, -, -, -, h3, -⟩ := C125_returns_partial (binary_rounds 53) oscillator rfl rfl
    ⟨by decide, by decide, by decide, by decide⟩ 0 1 (binary 53 (1 / 10)) (by decide +kernel) (by decide +kernel) (by decide +kernel)
    ⟨none, none, none⟩ (by simp [Outputs.Start]) (oscillatorAt 0 (binary 53 (1 / 10))) rfl (.inl ⟨rfl, rfl⟩)
  exact ⟨N, s', evs, h1, h2, h3⟩

end Verif.Round
