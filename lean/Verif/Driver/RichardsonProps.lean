import Verif.Driver.RunProps
import Verif.Event.Model
import Verif.Witness
import Mathlib.Tactic.Module
import Mathlib.Tactic.FieldSimp
import Mathlib.Algebra.Module.Prod
import Mathlib.Algebra.Module.Rat

/-! # C48, C98: Richardson error -/

set_option linter.unusedSectionVars false

namespace Verif.Driver

open Verif.Res

section
variable {K V S : Type} [Field K] [LinearOrder K] [AddCommGroup V] [Module K V]

/-- A post-observer call after which the sample is skipped -/
def Note.bad (n : Note K V) : Bool := !n.accepted || n.tr.truncated

theorem watched_ok {sv : RSolver K V S} {skip : Bool} {s : S} {r : S × Bool} (h : watched sv skip s = .ok r) :
    ∃ ns, sv.doStep s = (ns, .ok r.1) ∧ (∀ n ∈ ns, n.changed = false) ∧
      r.2 = (skip || ns.any Note.bad) := by
  unfold watched at h
  simp only at h
  split at h
  · cases h
  · rename_i hc
    split at h
    · cases h
    · rename_i s' hs
      cases h
      refine ⟨(sv.doStep s).1, Prod.ext rfl hs, ?_, rfl⟩
      intro n hn
      cases hch : n.changed with
      | false => rfl
      | true => exact absurd (List.any_eq_true.2 ⟨n, hn, hch⟩) hc

/-- C48, bookkeeping, for any solver: an iteration that returns restarts softly from the same state twice, makes
two half steps and a whole one, in none of which the step size was changed; it continues with the result of the
half steps; and the sample is left out exactly when an attempt in one of the three steps was rejected or
truncated, otherwise it is the difference of the results times the factor. -/
theorem C48_iteration (sv : RSolver K V S) (f h t : K) (x : V) (s s' : S) (x1 : V) (e : Option V)
    (hr : richardsonStep sv f h t x s = .ok (s', x1, e)) :
    ∃ a b c d ns1 ns2 ns3, sv.setInitialState t x true s = .ok a ∧
      sv.doStep (sv.setInitialStepSize (1 / 2 * h) a) = (ns1, .ok b) ∧ sv.doStep b = (ns2, .ok c) ∧
      sv.setInitialState t x true c = .ok d ∧ sv.doStep (sv.setInitialStepSize h d) = (ns3, .ok s') ∧
      (∀ n ∈ ns1 ++ ns2 ++ ns3, n.changed = false) ∧ x1 = sv.state c ∧
      (e = none ↔ ∃ n ∈ ns1 ++ ns2 ++ ns3, n.accepted = false ∨ n.tr.truncated = true) ∧
      (∀ v, e = some v → v = f • (sv.state c - sv.state s')) := by
  unfold richardsonStep at hr
  obtain ⟨a, h1, hr⟩ := bind_inv hr
  obtain ⟨b, h2, hr⟩ := bind_inv hr
  obtain ⟨c, h3, hr⟩ := bind_inv hr
  obtain ⟨d, h4, hr⟩ := bind_inv hr
  obtain ⟨g, h5, hr⟩ := bind_inv hr
  cases hr
  obtain ⟨ns1, a1, a2, a3⟩ := watched_ok h2
  obtain ⟨ns2, b1, b2, b3⟩ := watched_ok h3
  obtain ⟨ns3, c1, c2, c3⟩ := watched_ok h5
  have hany : g.2 = (ns1 ++ ns2 ++ ns3).any Note.bad := by
    rw [c3, b3, a3]
    simp [Bool.or_assoc]
  refine ⟨a, b.1, c.1, d, ns1, ns2, ns3, h1, a1, b1, h4, c1, ?_, rfl, ?_, ?_⟩
  · intro n hn
    rcases List.mem_append.1 hn with hn | hn
    · rcases List.mem_append.1 hn with hn | hn
      · exact a2 n hn
      · exact b2 n hn
    · exact c2 n hn
  · rw [hany]
    have : ((ns1 ++ ns2 ++ ns3).any Note.bad = true) ↔
        ∃ n ∈ ns1 ++ ns2 ++ ns3, n.accepted = false ∨ n.tr.truncated = true := by
      rw [List.any_eq_true]
      simp [Note.bad]
    rw [← this]
    cases (ns1 ++ ns2 ++ ns3).any Note.bad <;> simp
  · intro v hv
    split at hv
    · cases hv
    · cases hv
      rfl

/-- C48. A step after which the step size is reported changed ends the calculation with an exception. -/
theorem C48_changed (sv : RSolver K V S) (f h t : K) (x : V) (s a : S) (hs : sv.setInitialState t x true s = .ok a)
    (n : Note K V) (hn : n ∈ (sv.doStep (sv.setInitialStepSize (1 / 2 * h) a)).1) (hc : n.changed = true) :
    richardsonStep sv f h t x s
      = .error (.exc "ODE solver changed step size, which is currently unexpected") := by
  unfold richardsonStep
  rw [hs]
  simp only [bind_ok]
  unfold watched
  simp only
  rw [if_pos (List.any_eq_true.2 ⟨n, hn, hc⟩)]
  rfl

/-- A solver that makes one-step-method steps `ψ t k x` without rejections, truncations and changes of the step
size: `R s t x k` says that `s` stands at time `t`, state `x` and steps with `k`. -/
structure Plain (sv : RSolver K V S) (ψ : K → K → V → V) (I : S → Prop) (R : S → K → V → K → Prop) : Prop where
  set : ∀ s, I s → ∀ t x k, ∃ s1, sv.setInitialState t x true s = .ok s1 ∧
    R (sv.setInitialStepSize k s1) t x k
  step : ∀ s t x k, R s t x k → ∃ ns s', sv.doStep s = (ns, .ok s') ∧
    (∀ n ∈ ns, n.accepted = true ∧ n.changed = false ∧ n.tr.truncated = false) ∧ R s' (t + k) (ψ t k x) k
  state : ∀ s t x k, R s t x k → sv.state s = x
  inv : ∀ s t x k, R s t x k → I s

/-- Two half steps -/
def halves (ψ : K → K → V → V) (t h : K) (x : V) : V := ψ (t + 1 / 2 * h) (1 / 2 * h) (ψ t (1 / 2 * h) x)

theorem watched_plain {sv : RSolver K V S} {ψ : K → K → V → V} {I : S → Prop} {R : S → K → V → K → Prop}
    (hp : Plain sv ψ I R) {s : S} {t k : K} {x : V} (h : R s t x k) :
    ∃ s', watched sv false s = .ok (s', false) ∧ R s' (t + k) (ψ t k x) k := by
  obtain ⟨ns, s', h1, h2, h3⟩ := hp.step s t x k h
  refine ⟨s', ?_, h3⟩
  unfold watched
  rw [h1]
  simp only
  rw [if_neg (by
    intro hc
    obtain ⟨n, hn, hc⟩ := List.any_eq_true.1 hc
    rw [(h2 n hn).2.1] at hc
    cases hc)]
  have : ns.any (fun n => !n.accepted || n.tr.truncated) = false := by
    rw [List.any_eq_false]
    intro n hn
    simp [(h2 n hn).1, (h2 n hn).2.2]
  rw [this]
  rfl

theorem richardsonStep_plain {sv : RSolver K V S} {ψ : K → K → V → V} {I : S → Prop}
    {R : S → K → V → K → Prop} (hp : Plain sv ψ I R) (f h t : K) (x : V) {s : S} (hI : I s) :
    ∃ s', I s' ∧ richardsonStep sv f h t x s
      = .ok (s', halves ψ t h x, some (f • (halves ψ t h x - ψ t h x))) := by
  obtain ⟨a, a1, a2⟩ := hp.set s hI t x (1 / 2 * h)
  obtain ⟨b, b1, b2⟩ := watched_plain hp a2
  obtain ⟨c, c1, c2⟩ := watched_plain hp b2
  obtain ⟨d, d1, d2⟩ := hp.set c (hp.inv _ _ _ _ c2) t x h
  obtain ⟨e, e1, e2⟩ := watched_plain hp d2
  refine ⟨e, hp.inv _ _ _ _ e2, ?_⟩
  unfold richardsonStep
  simp only [a1, b1, c1, d1, e1, bind_ok]
  rw [hp.state _ _ _ _ c2, hp.state _ _ _ _ e2]
  rfl

/-- C48. The whole calculation with a plain solver of order `p`, `1 ≤ p ≤ 30`: exactly `n = max 1 ⌈T/h⌉` samples,
at the times `t + i h` and from the states reached by `2 i` half steps; each is the difference of the results of
two half steps and of a whole step times `2^p / (2^p - 1)`. -/
theorem C48_run [IsStrictOrderedRing K] (sv : RSolver K V S) (ψ : K → K → V → V) (I : S → Prop)
    (R : S → K → V → K → Prop) (hp : Plain sv ψ I R) (p : Nat) (hord : sv.order = p) (hp1 : 1 ≤ p) (hp2 : p ≤ 30)
    (T h : K) (hh : 0 < h) (n : Nat) (hn : 1 ≤ n) (hT : T ≤ n * h) (hT' : n = 1 ∨ ((n : K) - 1) * h < T)
    (s : S) (hI : I (sv.disableErrorCheck s)) (xs : Nat → V) (hx0 : xs 0 = sv.state (sv.disableErrorCheck s))
    (hx : ∀ i : Nat, xs (i + 1) = halves ψ (sv.time (sv.disableErrorCheck s) + i * h) h (xs i)) :
    calculateError sv T h n s = some (.ok ((List.range n).map (fun i : Nat =>
      ⟨sv.time (sv.disableErrorCheck s) + i * h, h,
        ((2 : K) ^ p / (2 ^ p - 1)) •
          (xs (i + 1) - ψ (sv.time (sv.disableErrorCheck s) + i * h) h (xs i))⟩))) := by
  set t0 := sv.time (sv.disableErrorCheck s) with ht0
  set f : K := (2 : K) ^ p / (2 ^ p - 1) with hf
  have h2p : (2 : K) ^ p - 1 ≠ 0 := by
    have : (1 : K) < 2 ^ p := one_lt_pow₀ one_lt_two (by omega)
    exact (sub_pos.2 this).ne'
  have key : ∀ (m j : Nat), j + m = n → 1 ≤ m → ∀ u, I u →
      richardsonLoop sv f h (t0 + T) m (t0 + j * h) (xs j) u = some (.ok ((List.range' j m).map (fun i : Nat =>
        ⟨t0 + i * h, h, f • (xs (i + 1) - ψ (t0 + i * h) h (xs i))⟩))) := by
    intro m
    induction m with
    | zero => omega
    | succ m ih =>
      intro j hj _ u hu
      obtain ⟨u', hu', hstep⟩ := richardsonStep_plain hp f h (t0 + j * h) (xs j) hu
      unfold richardsonLoop
      rw [hstep]
      simp only
      rw [← hx j]
      have ht : t0 + (j : K) * h + h = t0 + ((j + 1 : Nat) : K) * h := by push_cast; ring
      rw [ht]
      by_cases hm : m = 0
      · subst hm
        rw [if_neg]
        · simp
        · rw [not_lt, show j + 1 = n by omega]
          linarith
      · rw [if_pos]
        · rw [ih (j + 1) (by omega) (by omega) u' hu']
          simp [List.range'_succ, Except.map]
        · rcases hT' with h1 | h1
          · omega
          · have h2 : ((j + 1 : Nat) : K) ≤ (n : K) - 1 := by
              have h3 : ((j + 1 : Nat) : K) ≤ ((n - 1 : Nat) : K) := by
                exact_mod_cast (by omega : j + 1 ≤ n - 1)
              rwa [Nat.cast_sub hn, Nat.cast_one] at h3
            have := mul_le_mul_of_nonneg_right h2 hh.le
            linarith
  unfold calculateError
  simp only
  have hfac : (richardsonFactor sv.order : Res K) = .ok f := by
    unfold richardsonFactor div
    rw [hord, if_neg (by omega), if_neg h2p]
  rw [hfac]
  simp only
  have := key n 0 (by omega) hn (sv.disableErrorCheck s) hI
  rw [List.range_eq_range', ← hx0]
  simpa using this

/-- C48. If a step of size `k` errs by `k^(p+1) C` and the exact flow `φ` carries differences along unchanged
(as with right-hand sides that do not depend on the state), the error reported is that of the whole step:
exact result minus the one computed. -/
theorem C48_exact [CharZero K] (p : Nat) (hp1 : 1 ≤ p) (ψ φ : K → K → V → V) (C : V) (t h : K) (x : V)
    (hψ : ∀ t k x, ψ t k x = φ t k x + k ^ (p + 1) • C)
    (hflow : φ (t + 1 / 2 * h) (1 / 2 * h) (φ t (1 / 2 * h) x) = φ t h x)
    (hcarry : ∀ t k x d, φ t k (x + d) = φ t k x + d) :
    ((2 : K) ^ p / (2 ^ p - 1)) • (halves ψ t h x - ψ t h x) = φ t h x - ψ t h x := by
  have h2p : (2 : K) ^ p - 1 ≠ 0 := by
    intro h0
    have h1 : ((2 ^ p : Nat) : K) = ((1 : Nat) : K) := by
      push_cast
      exact sub_eq_zero.1 h0
    have h2 := Nat.cast_injective h1
    have h3 : 2 ^ 1 ≤ 2 ^ p := Nat.pow_le_pow_right (by omega) hp1
    omega
  unfold halves
  rw [hψ, hψ, hψ, hcarry, hflow]
  have h2 : (2 : K) ≠ 0 := two_ne_zero
  have e1 : φ t h x + (1 / 2 * h) ^ (p + 1) • C + (1 / 2 * h) ^ (p + 1) • C - (φ t h x + h ^ (p + 1) • C)
      = (2 * (1 / 2 * h) ^ (p + 1) - h ^ (p + 1)) • C := by module
  have e2 : φ t h x - (φ t h x + h ^ (p + 1) • C) = (-h ^ (p + 1)) • C := by module
  rw [e1, e2, smul_smul]
  congr 1
  have e3 : (1 / 2 : K) ^ (p + 1) = 1 / (2 * 2 ^ p) := by rw [div_pow, one_pow, pow_succ, mul_comm]
  rw [mul_pow, e3]
  field_simp
  ring

end

/-! ### The fixed-step explicit solvers -/

section
variable {K V E : Type} [Field K] [LinearOrder K] [AddCommGroup V] [Module K V]

open RK in
/-- OdeSolverExplicitRK for the calculator (OdeSolverExplicitRK.h:39-104): it has no parameters, and
`setInitialState` does not look at `soft`. -/
def erkR (m : Method K V E) (p : Nat) : RSolver K V (FixedSt K V E) :=
  { erk m with
    order := p
    disableErrorCheck := fun s => s
    setInitialState := fun t x _ s => .ok (s.setInitialState m t x)
    setInitialStepSize := fun h s => s.setInitialStepSize h }

open RK in
/-- Without events they are plain. -/
theorem erk_plain {T : Tableau K} {m : Method K V E} (hs : 1 ≤ T.s) (h0 : T.c 0 = 0)
    (hco : m.co = T.pack 1 (-1)) {I : E → Prop} (hq : Quiet m.ec I) (p : Nat) :
    Plain (erkR m p) (fun t h x => T.output m.rhs t h x 0)
      (fun s => ∃ v, Shows T I s v)
      (fun s t x k => ∃ v, Shows T I s v ∧ v.t = t ∧ v.x = x ∧ v.using?.getD v.hInit = k) where
  set s := by
    rintro ⟨v, hv⟩ t x k
    refine ⟨_, rfl, ⟨t, x, k, none, v.steps⟩, ⟨?_, rfl, rfl, rfl, fun _ => rfl, fun h hh => (by cases hh), hv.log⟩,
      rfl, rfl, rfl⟩
    unfold erkR FixedSt.setInitialStepSize FixedSt.setInitialState
    simp only
    cases hec : m.ec with
    | none => exact hv.ec
    | some c => exact hq.reset c hec _ hv.ec
  step s t x k := by
    rintro ⟨v, hv, rfl, rfl, rfl⟩
    obtain ⟨s', h1, h2⟩ := erk_step hs h0 hco hq hv
    refine ⟨_, s', h2, ?_, _, h1, rfl, rfl, rfl⟩
    intro n hn
    rw [List.mem_singleton] at hn
    subst hn
    exact ⟨rfl, rfl, rfl⟩
  state s t x k := by
    rintro ⟨v, hv, -, rfl, -⟩
    exact hv.x
  inv s t x k := by
    rintro ⟨v, hv, -⟩
    exact ⟨v, hv⟩

open RK in
/-- C48 for the fixed-step explicit solvers without events. -/
theorem C48_fixed [IsStrictOrderedRing K] (T : Tableau K) (m : Method K V E) (hs : 1 ≤ T.s) (h0 : T.c 0 = 0)
    (hco : m.co = T.pack 1 (-1)) (I : E → Prop) (hq : Quiet m.ec I) (p : Nat) (hp1 : 1 ≤ p) (hp2 : p ≤ 30)
    (t0 : K) (x0 : V) (hold : Option K) (hi : K) (e : E) (hI : I e)
    (dur h : K) (hh : 0 < h) (n : Nat) (hn : 1 ≤ n) (hT : dur ≤ n * h) (hT' : n = 1 ∨ ((n : K) - 1) * h < dur)
    (xs : Nat → V) (hx0 : xs 0 = x0)
    (hx : ∀ i : Nat, xs (i + 1) = halves (fun t h x => T.output m.rhs t h x 0) (t0 + i * h) h (xs i)) :
    calculateError (erkR m p) dur h n ⟨t0, x0, hold, Output.mkEmpty, hi, e, []⟩
      = some (.ok ((List.range n).map (fun i : Nat => ⟨t0 + i * h, h, ((2 : K) ^ p / (2 ^ p - 1)) •
        (xs (i + 1) - T.output m.rhs (t0 + i * h) h (xs i) 0)⟩))) :=
  C48_run (erkR m p) _ _ _ (erk_plain hs h0 hco hq p) p rfl hp1 hp2 dur h hh n hn hT hT'
    ⟨t0, x0, hold, Output.mkEmpty, hi, e, []⟩
    ⟨⟨t0, x0, hi, none, []⟩, ⟨hI, rfl, rfl, rfl, fun _ => rfl, fun h hh => by simp at hh, rfl⟩⟩ xs hx0 hx

end

/-- Euler on `x' = x` from 1 with `h = 1`: half steps give 9/4, the whole step 2, the error reported is 1/2 (the
exact one is `e - 2`). -/
example : (calculateError (erkR RK.eulerMethod 1) 1 1 1 ⟨0, 1, none, RK.Output.mkEmpty, 0, (), []⟩).map
    (fun r => r.map (fun l => l.map (fun a => (a.t, a.h, a.error)))) = some (.ok [(0, 1, 1/2)]) := by
  decide +kernel

/-! ### C98 -/

/-- A ball: position and velocity, which is reversed when the position gets to zero from above -/
def ball : RK.Method ℚ (ℚ × ℚ) (Event.Ctl ℚ × Unit) where
  co := RK.eulerMethod.co
  rhs _ x := (x.2, 0)
  ec := some (Event.controller ⟨fun _ => 1, fun _ => [1], fun _ _ x => [x.1], fun _ _ _ x => ((), (x.1, -x.2)),
    fun _ t x => (false, t, x)⟩)

/-- C98 is false: from position 1 and velocity -1 with `h = 4`, the first half step is cut at time 1, so the second
one ends at time 3, at position 2. There is no sample, but the calculation goes on from that state at time 4. -/
theorem C98_false : ∃ s' b c, richardsonStep (erkR ball 1) 2 4 0 (1, -1)
      ⟨0, (1, -1), none, RK.Output.mkEmpty, 1, (Event.Ctl.init, ()), []⟩ = .ok (s', (2, 1), none) ∧
    (erk ball).doStep ⟨0, (1, -1), none, RK.Output.mkEmpty, 2, (Event.Ctl.init, ()), []⟩ = ([⟨1, (0, 1), 2, true,
      false, ⟨true, some 0, -1⟩⟩], .ok b) ∧
    (erk ball).doStep b = ([⟨3, (2, 1), 2, true, false, RK.Trunc.none⟩], .ok c) := by
  have h1 : (match richardsonStep (erkR ball 1) 2 4 0 (1, -1)
      ⟨0, (1, -1), none, RK.Output.mkEmpty, 1, (Event.Ctl.init, ()), []⟩ with
    | .ok (_, x1, e) => decide (x1 = (2, 1) ∧ e = none)
    | .error _ => false) = true := by decide +kernel
  have h2 : (match (erk ball).doStep ⟨0, (1, -1), none, RK.Output.mkEmpty, 2, (Event.Ctl.init, ()), []⟩ with
    | (ns, .ok b) => decide (ns = [⟨1, (0, 1), 2, true, false, ⟨true, some 0, -1⟩⟩]) &&
      (match (erk ball).doStep b with
        | (ns, .ok _) => decide (ns = [⟨3, (2, 1), 2, true, false, RK.Trunc.none⟩])
        | (_, .error _) => false)
    | (_, .error _) => false) = true := by decide +kernel
  split at h1
  · rename_i s' x1 e hr
    obtain ⟨rfl, rfl⟩ := of_decide_eq_true h1
    split at h2
    · rename_i ns b hb
      rw [Bool.and_eq_true] at h2
      obtain ⟨h2, h3⟩ := h2
      split at h3
      · rename_i ns' c hc
        have e1 := of_decide_eq_true h2
        have e2 := of_decide_eq_true h3
        subst e1 e2
        exact ⟨s', b, c, hr, hb, hc⟩
      · cases h3
    · cases h2
  · cases h1

section
variable {K V E : Type} [Field K] [LinearOrder K] [AddCommGroup V] [Module K V]

open RK in
/-- A step that is not truncated, with the buffers as they are before and after steps -/
theorem erk_moves {m : Method K V E} (hsz : m.co.Sizes (m.co.c.length + 1) 1)
    (hec : ∀ e x1 x2 t2 q, RK.ecEnd m e x1 x2 t2 = .ok q → q.2.2.2.truncated = false → q.2.2.1 = t2)
    {s s' : FixedSt K V E} {ns : List (Note K V)} {h : K}
    (hs : (s.out.k = [] ∧ s.hInit = h) ∨
      (s.out.k.length = m.co.c.length + 1 ∧ s.out.x2.length = 1 ∧ s.h = some h))
    (hd : (erk m).doStep s = (ns, .ok s')) (hn : ∀ n ∈ ns, n.tr.truncated = false) :
    s'.t = s.t + h ∧ s'.out.k.length = m.co.c.length + 1 ∧ s'.out.x2.length = 1 ∧ s'.h = some h := by
  unfold erk at hd
  simp only at hd
  cases hds : s.doStep m with
  | error f => rw [hds] at hd; cases hd
  | ok s1 =>
    rw [hds] at hd
    simp only [Prod.mk.injEq, Except.ok.injEq] at hd
    obtain ⟨hd1, hd2⟩ := hd
    subst hd2
    unfold FixedSt.doStep at hds
    obtain ⟨si, hsi⟩ : ∃ si, FixedSt.initStep m { s with log := .pre s.h :: s.log } = si := ⟨_, rfl⟩
    have hi : si.t = s.t ∧ si.h = some h ∧ si.out.k.length = m.co.c.length + 1 ∧ si.out.x2.length = 1 := by
      unfold FixedSt.initStep at hsi
      rcases hs with ⟨h1, h2⟩ | ⟨h1, h2, h3⟩
      · rw [if_pos (by simp [h1])] at hsi
        subst hsi
        simp [Output.mk', h2]
      · rw [if_neg (by
          simp only [List.isEmpty_iff]
          intro h; rw [h] at h1; simp at h1)] at hsi
        subst hsi
        exact ⟨rfl, h3, h1, h2⟩
    obtain ⟨i1, i2, i3, i4⟩ := hi
    simp only [hsi] at hds
    obtain ⟨e, -, hds⟩ := bind_inv hds
    obtain ⟨k, hk, hds⟩ := bind_inv hds
    rw [i2] at hk
    cases hk
    obtain ⟨out, ho, hds⟩ := bind_inv hds
    obtain ⟨o', c1, c2, c3, -, -⟩ := compute_ok si.out m.co m.rhs si.x si.t h (by rw [i3, i4]; exact hsz)
    rw [c1] at ho
    cases ho
    obtain ⟨next, -, hds⟩ := bind_inv hds
    obtain ⟨q, hq, hds⟩ := bind_inv hds
    obtain ⟨x2, hx, hds⟩ := bind_inv hds
    cases hds
    have hx2 : x2.length = 1 := by
      unfold rawSet at hx
      split at hx
      · cases hx; rw [List.length_set, c3, i4]
      · cases hx
    have htr : q.2.2.2.truncated = false := by
      rw [← hd1] at hn
      exact hn _ (by simp only [erkNotes]; exact List.mem_singleton.2 rfl)
    have ht := hec _ _ _ _ _ hq htr
    exact ⟨by rw [ht, i1], by rw [c2, i3], hx2, i2⟩

open RK in
/-- C98 for the explicit solvers when none of the three steps is truncated (then there is a sample): the state the
calculation goes on from is reached at the time it goes on from, and so is the result of the whole step. -/
theorem C98_partial [CharZero K] {m : Method K V E} (hsz : m.co.Sizes (m.co.c.length + 1) 1)
    (hec : ∀ e x1 x2 t2 q, RK.ecEnd m e x1 x2 t2 = .ok q → q.2.2.2.truncated = false → q.2.2.1 = t2)
    {p : Nat} {f h t : K} {x x1 v : V} {s s' : FixedSt K V E}
    (hr : richardsonStep (erkR m p) f h t x s = .ok (s', x1, some v)) :
    ∃ a b c ns1 ns2, a.t = t ∧ a.x = x ∧ (erk m).doStep a = (ns1, .ok b) ∧ (erk m).doStep b = (ns2, .ok c) ∧
      c.x = x1 ∧ c.t = t + h ∧ s'.t = t + h ∧ v = f • (x1 - s'.x) := by
  obtain ⟨a, b, c, d, ns1, ns2, ns3, a1, a2, a3, a4, a5, a6, a7, a8, a9⟩ := C48_iteration _ _ _ _ _ _ _ _ _ hr
  have hn : ∀ n ∈ ns1 ++ ns2 ++ ns3, n.tr.truncated = false := by
    intro n hn
    cases htr : n.tr.truncated with
    | false => rfl
    | true => exact absurd (a8.2 ⟨n, hn, .inr htr⟩) (by simp)
  cases a1
  cases a4
  obtain ⟨b1, b2, b3, b4⟩ := erk_moves hsz hec (h := 1 / 2 * h) (.inl ⟨rfl, rfl⟩) a2 (fun n h => hn n (by simp [h]))
  obtain ⟨c1, -, -, -⟩ := erk_moves hsz hec (h := 1 / 2 * h) (.inr ⟨b2, b3, b4⟩) a3 (fun n h => hn n (by simp [h]))
  obtain ⟨d1, -, -, -⟩ := erk_moves hsz hec (h := h) (.inl ⟨rfl, rfl⟩) a5 (fun n h => hn n (by simp [h]))
  have e1 : b.t = t + 1 / 2 * h := b1
  have e2 : s'.t = t + h := d1
  refine ⟨_, b, c, ns1, ns2, rfl, rfl, a2, a3, a7.symm, ?_, e2, ?_⟩
  · rw [c1, e1]
    ring
  · rw [a9 v rfl, a7]
    rfl

end

/-- The ball away from the floor meets the conditions of `C98_partial`. -/
example : (match richardsonStep (erkR ball 1) 2 4 0 (10, -1)
      ⟨0, (10, -1), none, RK.Output.mkEmpty, 1, (Event.Ctl.init, ()), []⟩ with
    | .ok (s', x1, e) => decide (x1 = (6, -1) ∧ e = some 0 ∧ s'.t = 4)
    | .error _ => false) = true := by decide +kernel

end Verif.Driver
