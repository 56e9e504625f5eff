import Verif.Round.Adaptive

/-! # C129: the end of a run with a step size controller when arithmetic rounds -/

set_option linter.unusedSectionVars false

namespace Verif.Round

open Verif.Res Verif.RK Verif.Driver

section
variable {R V E S : Type}

theorem passes_mono {attempt : S → Res (Attempt S)} {note : S → List (Note R V)} (j : Nat) (s : S)
    (h : (passes attempt note j s).2 ≠ .error (.exc "more passes needed")) (k : Nat) (hk : j ≤ k) :
    passes attempt note k s = passes attempt note j s := by
  induction j generalizing s k with
  | zero => exact absurd rfl h
  | succ j ih =>
    obtain ⟨k, rfl⟩ : ∃ k', k = k' + 1 := ⟨k - 1, by omega⟩
    rw [passes, passes]
    rw [passes] at h
    cases ha : attempt s with
    | error e => rfl
    | ok A =>
      rw [ha] at h
      cases A with
      | accepted s' => rfl
      | thrown msg s' => rfl
      | rejected s' =>
        simp only at h ⊢
        rw [ih s' h k (by omega)]

end

section
variable {K V E : Type} [Field K] [LinearOrder K] [IsStrictOrderedRing K] {r : K → K} {u : K}
  [Zero V] [Add V] [Sub V] [SMul (Rd r) V]

theorem next_above {m : EmbMethod (Rd r) V E} {q : CtlResult (Rd r)} {h : Rd r} (hm : m.hMin < h)
    (hq : ¬ (q.changeStepSize = true ∧ q.newStepSize ≤ m.hMin)) : m.hMin < CtlResult.next q h := by
  unfold CtlResult.next
  split
  · rename_i hc
    exact not_le.1 fun hle => hq ⟨hc, hle⟩
  · exact hm

/-- A step of the solver that returns adds to the time a step size above the minimum, and leaves one. -/
theorem emb_moves {m : EmbMethod (Rd r) V E} (hec : m.ec = none) (hc : m.co.c ≠ [])
    (hs : m.co.Sizes (m.co.c.length + 1) 2) (j : Nat) (h : Rd r) (hm : m.hMin < h) (s : FixedSt (Rd r) V E) (hr : Ready2 m h s)
    {ns : List (Note (Rd r) V)} {s' : FixedSt (Rd r) V E} (hd : (emb m j).doStep s = (ns, .ok s')) :
    ∃ h1 h', m.hMin < h1 ∧ s'.t = s.t + h1 ∧ m.hMin < h' ∧ Ready2 m h' s' := by
  simp only [emb] at hd
  induction j generalizing s h ns with
  | zero => simp [passes] at hd
  | succ j ih =>
    rw [passes] at hd
    rcases attempt_ops hec hc hs hr with ⟨-, -, s1, a1⟩ | ⟨hq, s1, r1, ⟨-, a1, a2, -⟩ | ⟨-, a1, a2, -⟩⟩
    · simp [a1] at hd
    · simp only [a1, Prod.mk.injEq, Except.ok.injEq] at hd
      obtain ⟨-, rfl⟩ := hd
      exact ⟨h, _, hm, a2, next_above hm hq, r1⟩
    · simp only [a1, Prod.mk.injEq] at hd
      obtain ⟨h1, h', b1, b2, b3, b4⟩ := ih _ (next_above hm hq) s1 r1 (Prod.ext rfl hd.2)
      exact ⟨h1, h', b1, by rw [b2, a2], b3, b4⟩

/-- If the controller makes the step smaller by a factor whenever it rejects it, `doStep` returns or throws. -/
theorem emb_passes {m : EmbMethod (Rd r) V E} (hec : m.ec = none) (hc : m.co.c ≠ [])
    (hs : m.co.Sizes (m.co.c.length + 1) 2) {ρ : K} (hρ : 0 ≤ ρ)
    (hshrink : ∀ h err, m.hMin < h → (m.control h err m.lowOrder).acceptStep = false →
      (m.control h err m.lowOrder).changeStepSize = true ∧ (m.control h err m.lowOrder).newStepSize.val ≤ ρ * h.val)
    (j : Nat) (h : Rd r) (hm : m.hMin < h) (hj : h.val * ρ ^ j ≤ m.hMin.val) (s : FixedSt (Rd r) V E) (hr : Ready2 m h s) :
    ∃ ns res, (emb m j).doStep s = (ns, res) ∧
      (res = .error (.exc "Step size has decreased to the minimum or below") ∨ ∃ s', res = .ok s') := by
  simp only [emb]
  induction j generalizing s h with
  | zero =>
    rw [pow_zero, mul_one] at hj
    exact absurd hm (not_lt.2 hj)
  | succ j ih =>
    rw [passes]
    rcases attempt_ops hec hc hs hr with ⟨-, -, s1, a1⟩ | ⟨hq, s1, r1, ⟨-, a1, a2, -⟩ | ⟨h0, a1, a2, -⟩⟩
    · rw [a1]
      exact ⟨_, _, rfl, .inl rfl⟩
    · rw [a1]
      exact ⟨_, _, rfl, .inr ⟨_, rfl⟩⟩
    · rw [a1]
      have hsm : (CtlResult.next (embCtl m s.x s.t h) h).val ≤ ρ * h.val := by
        unfold embCtl at h0 ⊢
        cases hdis : m.disableErrorCheck with
        | true => simp [hdis] at h0
        | false =>
          simp only [hdis, Bool.false_eq_true, if_false] at h0 ⊢
          obtain ⟨b1, b2⟩ := hshrink h _ hm h0
          unfold CtlResult.next
          rw [if_pos b1]
          exact b2
      obtain ⟨ns, res, c1, c2⟩ := ih _ (next_above hm hq) (by
        refine le_trans (mul_le_mul_of_nonneg_right hsm (pow_nonneg hρ j)) ?_
        rw [pow_succ] at hj
        linarith) s1 r1
      simp only [c1]
      exact ⟨_, _, rfl, c2⟩

/-- What one step adds to the time, when a step size above the minimum is at least four times what is lost in an addition -/
theorem tick_adaptive (hr : Rounds r u) (hu4 : u ≤ 1 / 4) {t d H τ h : K} (hd : 0 ≤ d) (hu : 4 * (u * (|t| + d)) ≤ H)
    (hH : 0 < H) (hh : H < h) (h1 : t ≤ τ) (h2 : τ = t ∨ τ < r (t + d)) : τ + 2 / 5 * H ≤ r (τ + h) := by
  have hu0 := hr.nonneg
  have hB : 0 ≤ |t| + d := add_nonneg (abs_nonneg t) hd
  have habs : |r (t + d)| ≤ 5 / 4 * (|t| + d) := by
    have h1 := hr.abs_le (t + d)
    have h2 := abs_add_le t d
    rw [abs_of_nonneg hd] at h2
    have h3 : (1 + u) * |t + d| ≤ 5 / 4 * (|t| + d) := mul_le_mul (by linarith) h2 (abs_nonneg _) (by norm_num)
    linarith
  have h4 : |τ| ≤ 5 / 4 * (|t| + d) := by
    rcases h2 with h2 | h2
    · rw [h2]; linarith [abs_nonneg t]
    · rw [abs_le]
      have h5 := (abs_le.1 habs).2
      have h6 := neg_abs_le t
      constructor <;> linarith [abs_nonneg t]
  have h5 := (abs_le.1 (hr.le (τ + h))).1
  have h6 : |τ + h| ≤ 5 / 4 * (|t| + d) + h := by
    have := abs_add_le τ h
    rw [abs_of_pos (hH.trans hh)] at this
    linarith
  have h7 : u * |τ + h| ≤ 5 / 4 * (u * (|t| + d)) + u * h := by
    refine (mul_le_mul_of_nonneg_left h6 hu0).trans (le_of_eq ?_)
    ring
  have h8 : u * h ≤ 1 / 4 * h := mul_le_mul_of_nonneg_right hu4 (hH.trans hh).le
  linarith

/-- C129. With rounding, `solveOde` returns or reports that the step size is too small, for every embedded Runge-Kutta solver
without an event controller and every controller that makes a step it rejects smaller by a factor, if the minimal step size is
at least four times what is lost in an addition to the time, `u (|t| + d)`: after at most `5 d / (2 hMin) + 1` accepted steps,
with finitely many rejected ones. -/
theorem C129_ends_partial [Archimedean K] (hr : Rounds r u) (hu4 : u ≤ 1 / 4) (m : EmbMethod (Rd r) V E) (hec : m.ec = none)
    (hc : m.co.c ≠ []) (hs : m.co.Sizes (m.co.c.length + 1) 2) {ρ : K} (hρ : 0 ≤ ρ) (hρ1 : ρ < 1)
    (hshrink : ∀ h err, m.hMin < h → (m.control h err m.lowOrder).acceptStep = false →
      (m.control h err m.lowOrder).changeStepSize = true ∧ (m.control h err m.lowOrder).newStepSize.val ≤ ρ * h.val)
    (t d : K) (hd : 0 ≤ d) (hH : 0 < m.hMin.val) (hu : 4 * (u * (|t| + d)) ≤ m.hMin.val)
    (c : Outputs) (hst : c.Start) (s : FixedSt (Rd r) V E) (ht : s.t = ⟨t⟩) (h : Rd r) (hm : m.hMin < h) (hs0 : Ready2 m h s)
    (N : Nat) (hN : 5 * d + 2 * m.hMin.val ≤ 2 * N * m.hMin.val) :
    ∃ j evs res, (∀ k ≥ j, solveOde (emb m k) c ⟨d⟩ N s = some (evs, res)) ∧
      (res = .error (.exc "Step size has decreased to the minimum or below") ∨
        ∃ s', res = .ok s' ∧ s.t + ⟨d⟩ ≤ s'.t) := by
  have key : ∀ N : Nat, ∀ (h : Rd r) (s : FixedSt (Rd r) V E), m.hMin < h → Ready2 m h s → t ≤ s.t.val →
      (s.t.val = t ∨ s.t.val < r (t + d)) → 1 ≤ N → r (t + d) ≤ s.t.val + N * (2 / 5 * m.hMin.val) →
      ∃ j evs res, (∀ k ≥ j, runLoop (emb m k) (⟨r (t + d)⟩ : Rd r) N s = some (evs, res)) ∧
      (res = .error (.exc "Step size has decreased to the minimum or below") ∨
        ∃ s', res = .ok s' ∧ (⟨r (t + d)⟩ : Rd r) ≤ s'.t) := by
    intro N
    induction N with
    | zero => intro _ _ _ _ _ _ h; omega
    | succ N ih =>
      intro h s hm hs0 ht1 ht2 _ he
      obtain ⟨j, hj⟩ : ∃ j : Nat, h.val * ρ ^ j ≤ m.hMin.val := by
        have hpos : 0 < h.val := lt_trans hH hm
        obtain ⟨j, hj⟩ := exists_pow_lt_of_lt_one (div_pos hH hpos) hρ1
        refine ⟨j, ?_⟩
        rw [lt_div_iff₀ hpos] at hj
        linarith
      obtain ⟨ns, res, c1, c2⟩ := emb_passes hec hc hs hρ hshrink j h hm hj s hs0
      have hstep : ∀ k ≥ j, (emb m k).doStep s = (ns, res) := by
        intro k hk
        rw [← c1]
        simp only [emb] at c1 ⊢
        refine passes_mono j s ?_ k hk
        rw [c1]
        rcases c2 with rfl | ⟨s', rfl⟩
        · intro h
          injection h with h
          injection h with h
          exact absurd h (by decide)
        · simp
      rcases c2 with rfl | ⟨s', rfl⟩
      · exact ⟨j, ns, _, fun k hk => by rw [runLoop, hstep k hk], .inl rfl⟩
      · obtain ⟨h1, h', b1, b2, b3, b4⟩ := emb_moves hec hc hs j h hm s hs0 c1
        have b2' : s'.t.val = r (s.t.val + h1.val) := by rw [b2, Rd.val_add]
        have htick := tick_adaptive hr hu4 hd hu hH b1 ht1 ht2
        rw [← b2'] at htick
        by_cases hlt : s'.t < (⟨r (t + d)⟩ : Rd r)
        · have hlt' : s'.t.val < r (t + d) := hlt
          have hN1 : 1 ≤ N := by
            by_contra hc
            have : N = 0 := by omega
            subst this
            push_cast at he
            linarith
          obtain ⟨j', evs, res, d1, d2⟩ := ih h' s' b3 b4 (by linarith) (.inr hlt') hN1 (by push_cast at he; linarith)
          refine ⟨max j j', ns ++ evs, res, fun k hk => ?_, d2⟩
          rw [runLoop, hstep k (le_trans (le_max_left _ _) hk)]
          simp only
          rw [if_pos (show (emb m k).time s' < _ from hlt), d1 k (le_trans (le_max_right _ _) hk)]
          rfl
        · refine ⟨j, ns, .ok s', fun k hk => ?_, .inr ⟨s', rfl, not_lt.1 hlt⟩⟩
          rw [runLoop, hstep k hk]
          simp only
          rw [if_neg (show ¬ (emb m k).time s' < _ from hlt)]
  have hle : r (t + d) ≤ t + d + u * (|t| + d) := by
    have h1 := (abs_le.1 (hr.le (t + d))).2
    have h2 : u * |t + d| ≤ u * (|t| + d) := by
      refine mul_le_mul_of_nonneg_left ?_ hr.nonneg
      have := abs_add_le t d
      rwa [abs_of_nonneg hd] at this
    linarith
  have hN1 : 1 ≤ N := by
    by_contra hc
    have : N = 0 := by omega
    subst this
    push_cast at hN
    linarith
  obtain ⟨j, evs, res, d1, d2⟩ := key N h s hm hs0 (by rw [ht]) (.inl (by rw [ht])) hN1 (by
    rw [ht]
    have : (N : K) * (2 / 5 * m.hMin.val) = 1 / 5 * (2 * N * m.hMin.val) := by ring
    show _ ≤ t + _
    rw [this]
    linarith)
  have e : ∀ k, (emb m k).time s + (⟨d⟩ : Rd r) = ⟨r (t + d)⟩ := by
    intro k
    show s.t + _ = _
    rw [ht]
    rfl
  have e' : s.t + (⟨d⟩ : Rd r) = ⟨r (t + d)⟩ := e 0
  rw [e']
  have hsolve : ∀ k ≥ j, solveOde (emb m k) c ⟨d⟩ N s = (match res with
      | .ok q => some (c.given.map .started ++ evs.map .note ++ c.given.map .finished, .ok q)
      | .error f => some (c.given.map .started ++ evs.map .note, .error f)) := by
    intro k hk
    unfold solveOde
    rw [if_pos (show (emb m k).hasRhs s = true from rfl), initOutput_ok c hst]
    simp only [e, d1 k hk]
    cases res <;> rfl
  cases res with
  | ok q => exact ⟨j, _, _, hsolve, by simpa using d2⟩
  | error f => exact ⟨j, _, _, hsolve, by simpa using d2⟩

/-- The simple controller makes a step it rejects smaller. -/
theorem simple_shrinks (hr : Rounds r u) (hu : u ≤ 1 / 100) (c : CtlParams (Rd r)) (pow : Rd r → Rd r → Rd r)
    (h1 : 0 ≤ c.insurance.val) (h2 : c.insurance.val ≤ 9 / 10) (h3 : c.decMax.val ≤ 9 / 10) (h err order : Rd r) (hh : 0 < h.val)
    (ha : (c.control pow h err order).acceptStep = false) :
    (c.control pow h err order).changeStepSize = true ∧ (c.control pow h err order).newStepSize.val ≤ 24 / 25 * h.val := by
  have hu0 := hr.nonneg
  have up : ∀ x b : K, 0 ≤ b → x ≤ b → r x ≤ (1 + u) * b := by
    intro x b hb hx
    have h4 := (abs_le.1 (hr.le x)).2
    rcases le_or_gt 0 x with hx0 | hx0
    · rw [abs_of_nonneg hx0] at h4
      have : (1 + u) * x ≤ (1 + u) * b := mul_le_mul_of_nonneg_left hx (by linarith)
      linarith
    · rw [abs_of_neg hx0] at h4
      have h5 : u * -x ≤ 1 / 100 * -x := mul_le_mul_of_nonneg_right hu (by linarith)
      have h6 : 0 ≤ (1 + u) * b := mul_nonneg (by linarith) hb
      linarith
  have dn : ∀ x b : K, 0 ≤ b → x ≤ b → r x ≤ 101 / 100 * b := by
    intro x b hb hx
    refine (up x b hb hx).trans (mul_le_mul_of_nonneg_right (by linarith) hb)
  unfold CtlParams.control at ha ⊢
  split at ha
  · simp at ha
  · rename_i he
    rw [if_neg he]
    simp only at ha ⊢
    split at ha
    · exfalso
      revert ha
      repeat' split
      all_goals simp
    · rename_i hp
      rw [if_neg hp]
      split at ha
      · simp at ha
      · rename_i hg
        rw [if_neg hg]
        refine ⟨rfl, ?_⟩
        set p := pow (c.tolerance / err) (1 / (order + 1)) with hpd
        have hp1 : p.val < 1 := not_le.1 hp
        have hpd1 : (p * c.insurance).val ≤ 91 / 100 := by
          rw [Rd.val_mul]
          have : p.val * c.insurance.val ≤ 9 / 10 := by
            have := mul_le_mul_of_nonneg_right hp1.le h1
            linarith
          have := dn _ (9 / 10) (by norm_num) this
          linarith
        have hq : (if 0 < c.decMax ∧ p * c.insurance < c.decMax then c.decMax else p * c.insurance).val ≤ 91 / 100 := by
          split
          · linarith
          · exact hpd1
        rw [Rd.val_mul]
        have hb : h.val * (if 0 < c.decMax ∧ p * c.insurance < c.decMax then c.decMax else p * c.insurance).val ≤ 91 / 100 * h.val := by
          have := mul_le_mul_of_nonneg_left hq hh.le
          linarith
        have := dn _ _ (by positivity) hb
        linarith

/-- C129. The same with the controller of the library, whatever `std::pow` returns. -/
theorem C129_simple_partial [Archimedean K] (hr : Rounds r u) (hu4 : u ≤ 1 / 100) (m : EmbMethod (Rd r) V E) (hec : m.ec = none)
    (hc : m.co.c ≠ []) (hs : m.co.Sizes (m.co.c.length + 1) 2) (p : CtlParams (Rd r)) (pow : Rd r → Rd r → Rd r)
    (hctl : m.control = p.control pow) (h1 : 0 ≤ p.insurance.val) (h2 : p.insurance.val ≤ 9 / 10) (h3 : p.decMax.val ≤ 9 / 10)
    (t d : K) (hd : 0 ≤ d) (hH : 0 < m.hMin.val) (hu : 4 * (u * (|t| + d)) ≤ m.hMin.val)
    (c : Outputs) (hst : c.Start) (s : FixedSt (Rd r) V E) (ht : s.t = ⟨t⟩) (h : Rd r) (hm : m.hMin < h) (hs0 : Ready2 m h s)
    (N : Nat) (hN : 5 * d + 2 * m.hMin.val ≤ 2 * N * m.hMin.val) :
    ∃ j evs res, (∀ k ≥ j, solveOde (emb m k) c ⟨d⟩ N s = some (evs, res)) ∧
      (res = .error (.exc "Step size has decreased to the minimum or below") ∨
        ∃ s', res = .ok s' ∧ s.t + ⟨d⟩ ≤ s'.t) :=
  C129_ends_partial hr (by linarith) m hec hc hs (ρ := 24 / 25) (by norm_num) (by norm_num)
    (fun h err hm ha => by
      rw [hctl] at ha ⊢
      exact simple_shrinks hr hu4 p pow h1 h2 h3 h err _ (lt_trans hH hm) ha)
    t d hd hH hu c hst s ht h hm hs0 N hN

end

/-! ### `double` -/

/-- A right-hand side that is 0 until the time 1000 and `10^20` afterwards -/
def pushRhs (t : Rd (binary 53 : ℚ → ℚ)) (_ : Vec (binary 53 : ℚ → ℚ) 1) : Vec (binary 53 : ℚ → ℚ) 1 :=
  fun _ => if t ≤ ⟨1000⟩ then 0 else ⟨10 ^ 20⟩

/-- The solver dopri45 with its default parameters (OdeSolverExplicitEmbeddedRK.h:30-45, interfaces/OdeSolver.h:96) for one
variable, with the norm "inf" and a function `pow` for `std::pow` -/
def push (pow : Rd (binary 53 : ℚ → ℚ) → Rd (binary 53 : ℚ → ℚ) → Rd (binary 53 : ℚ → ℚ)) :
    EmbMethod (Rd (binary 53 : ℚ → ℚ)) (Vec (binary 53 : ℚ → ℚ) 1) Unit where
  co := round (binary 53) dopri45
  rhs := pushRhs
  ec := none
  highOrder := 5
  lowOrder := 4
  disableErrorCheck := false
  forceErrorCalc := false
  hAfterSwitch := 0
  lowMode := true
  hMin := .lit _ (1 / 10 ^ 16)
  norm v := ⟨|(v 0).val|⟩
  control := (roundCtl (binary 53) .default).control pow

/-- At rest at the time 1000 -/
def pushAt (h : ℚ) : FixedSt (Rd (binary 53 : ℚ → ℚ)) (Vec (binary 53 : ℚ → ℚ) 1) Unit where
  t := ⟨1000⟩
  x := fun _ => ⟨1⟩
  h := none
  out := Output.mkEmpty
  hInit := .lit _ h
  ec := ()
  log := []

/-- The sizes of the steps tried -/
def pushH : Nat → Rd (binary 53 : ℚ → ℚ)
  | 0 => .lit _ (1 / 100)
  | i + 1 => pushH i * .lit _ (1 / 10)

theorem push_large : ∀ i < 12, 1 ≤ |((embOut (round (binary 53) dopri45) pushRhs (fun _ => ⟨1⟩) ⟨1000⟩ (pushH i) 0 -
    embOut (round (binary 53) dopri45) pushRhs (fun _ => ⟨1⟩) ⟨1000⟩ (pushH i) 1 : Vec (binary 53 : ℚ → ℚ) 1) 0).val| := by
  decide +kernel

theorem push_last : embOut (round (binary 53) dopri45) pushRhs (fun _ => ⟨1⟩) ⟨1000⟩ (pushH 12) 0 = (fun _ => ⟨1⟩) ∧
    embOut (round (binary 53) dopri45) pushRhs (fun _ => ⟨1⟩) ⟨1000⟩ (pushH 12) 1 = (fun _ => ⟨1⟩) := by
  decide +kernel

theorem push_time : (⟨1000⟩ : Rd (binary 53 : ℚ → ℚ)) + pushH 12 = ⟨1000⟩ ∧
    (⟨1000⟩ : Rd (binary 53 : ℚ → ℚ)) < ⟨1000⟩ + ⟨1⟩ ∧ ∀ i < 12, ¬ pushH (i + 1) ≤ Rd.lit _ (1 / 10 ^ 16) := by
  decide +kernel

theorem push_order : (1 : Rd (binary 53 : ℚ → ℚ)) / (((4 : Nat) : Rd (binary 53 : ℚ → ℚ)) + 1) = .lit _ (1 / 5) := by
  decide +kernel

/-- The controller's answer to a large error -/
theorem push_reject {pow : Rd (binary 53 : ℚ → ℚ) → Rd (binary 53 : ℚ → ℚ) → Rd (binary 53 : ℚ → ℚ)}
    (hpow : ∀ a : Rd (binary 53 : ℚ → ℚ), 0 < a.val → a.val ≤ 2 / 10 ^ 6 → (pow a (.lit _ (1 / 5))).val < 1 / 10)
    (h err : Rd (binary 53 : ℚ → ℚ)) (he : 1 ≤ err.val) :
    (roundCtl (binary 53) .default).control pow h err ((4 : Nat) : Rd (binary 53 : ℚ → ℚ)) = ⟨h * .lit _ (1 / 10), false, true⟩ := by
  have hr := binary_rounds (K := ℚ) 53
  have hdec : 99 / 1000 < (roundCtl (binary 53 : ℚ → ℚ) .default).decMax.val := by decide +kernel
  have hdec0 : 0 < (roundCtl (binary 53 : ℚ → ℚ) .default).decMax := by decide +kernel
  have hins : 0 ≤ (roundCtl (binary 53 : ℚ → ℚ) .default).insurance.val ∧
    (roundCtl (binary 53 : ℚ → ℚ) .default).insurance.val ≤ 81 / 100 := by decide +kernel
  have htol : 0 < (roundCtl (binary 53 : ℚ → ℚ) .default).tolerance.val ∧
    (roundCtl (binary 53 : ℚ → ℚ) .default).tolerance.val ≤ 11 / 10 ^ 7 := by decide +kernel
  have hgeom : 1 / 10 ≤ (1 - geomEps : Rd (binary 53 : ℚ → ℚ)).val := by decide +kernel
  have hu : (1 : ℚ) / 2 ^ 53 ≤ 1 / 100 := by norm_num
  set a := (roundCtl (binary 53 : ℚ → ℚ) .default).tolerance / err with hadef
  have haval : a.val = binary 53 ((roundCtl (binary 53 : ℚ → ℚ) .default).tolerance.val / err.val) := rfl
  set x := (roundCtl (binary 53 : ℚ → ℚ) .default).tolerance.val / err.val with hx
  have hx0 : 0 < x := div_pos htol.1 (by linarith)
  have hx1 : x ≤ 11 / 10 ^ 7 := (div_le_self htol.1.le he).trans htol.2
  have hxr := abs_le.1 (hr.le x)
  rw [abs_of_pos hx0, ← haval] at hxr
  have hxu : 1 / 2 ^ 53 * x ≤ 1 / 100 * x := mul_le_mul_of_nonneg_right hu hx0.le
  have hp := hpow a (by linarith) (by linarith)
  have hpd : (pow a (.lit _ (1 / 5)) * (roundCtl (binary 53 : ℚ → ℚ) .default).insurance).val <
      (roundCtl (binary 53 : ℚ → ℚ) .default).decMax.val := by
    rw [Rd.val_mul]
    set y := (pow a (.lit _ (1 / 5))).val * (roundCtl (binary 53 : ℚ → ℚ) .default).insurance.val with hy
    have hy1 : y ≤ 81 / 1000 := by
      have := mul_le_mul_of_nonneg_right hp.le hins.1
      linarith [hins.2]
    have hyr := (abs_le.1 (hr.le y)).2
    rcases le_or_gt 0 y with hy0 | hy0
    · rw [abs_of_nonneg hy0] at hyr
      have : 1 / 2 ^ 53 * y ≤ 1 / 100 * y := mul_le_mul_of_nonneg_right hu hy0
      linarith
    · rw [abs_of_neg hy0] at hyr
      have : 1 / 2 ^ 53 * -y ≤ 1 / 100 * -y := mul_le_mul_of_nonneg_right hu (by linarith)
      linarith
  unfold CtlParams.control
  rw [if_neg (show err ≠ 0 from fun h0 => by rw [h0] at he; exact absurd he (by decide +kernel)), push_order]
  simp only
  rw [← hadef, if_neg (show ¬ (1 : Rd (binary 53 : ℚ → ℚ)) ≤ pow a _ from not_le.2 (show _ < (1 : ℚ) by linarith)),
    if_neg (show ¬ 1 - geomEps < pow a _ from not_lt.2 (show (pow a _).val ≤ (1 - geomEps : Rd (binary 53 : ℚ → ℚ)).val by linarith)),
    if_pos ⟨hdec0, hpd⟩]
  rfl

theorem push_sizes : (round (binary 53 : ℚ → ℚ) dopri45).Sizes ((round (binary 53 : ℚ → ℚ) dopri45).c.length + 1) 2 :=
  ⟨by decide, by decide, by decide, by decide⟩

/-- C129 is false: the right-hand side is zero until the time 1000 and `10^20` afterwards. The solver dopri45 with default
parameters, in `double`, is started at the time 1000 with the step size `0.01`. It rejects twelve steps, makes one of the size
`10^-14`, which does not change the time, and makes it again forever: the size is above the minimum `10^-16`, and an error of zero
leaves it as it is. The values of `std::pow` are used only where they must be small: `a^(1/5)` for `a ≤ 2 10^-6`. -/
theorem C129_forever_false (pow : Rd (binary 53 : ℚ → ℚ) → Rd (binary 53 : ℚ → ℚ) → Rd (binary 53 : ℚ → ℚ))
    (hpow : ∀ a : Rd (binary 53 : ℚ → ℚ), 0 < a.val → a.val ≤ 2 / 10 ^ 6 → (pow a (.lit _ (1 / 5))).val < 1 / 10)
    (j : Nat) (hj : 13 ≤ j) (fuel : Nat) :
    solveOde (emb (push pow) j) ⟨none, none, none⟩ ⟨1⟩ fuel (pushAt (1 / 100)) = none := by
  have hsz : (push pow).co.Sizes ((push pow).co.c.length + 1) 2 := push_sizes
  have hne : (push pow).co.c ≠ [] := by simp [push, round, dopri45]
  let P : Nat → FixedSt (Rd (binary 53 : ℚ → ℚ)) (Vec (binary 53 : ℚ → ℚ) 1) Unit → Prop :=
    fun i s => s.t = ⟨1000⟩ ∧ s.x = (fun _ => ⟨1⟩) ∧ Ready2 (push pow) (pushH i) s
  have rej : ∀ i < 12, ∀ s, P i s → ∃ s', s.attempt (push pow) = .ok (.rejected s') ∧ P (i + 1) s' := by
    rintro i hi s ⟨h1, h2, h3⟩
    have hq : embCtl (push pow) s.x s.t (pushH i) = ⟨pushH (i + 1), false, true⟩ := by
      rw [h1, h2]
      exact push_reject hpow (pushH i) _ (push_large i hi)
    have hmin : ¬ pushH (i + 1) ≤ (push pow).hMin := push_time.2.2 i hi
    rcases attempt_ops (m := push pow) rfl hne hsz h3 with ⟨-, a2, -⟩ | ⟨-, s', b1, ⟨a1, -⟩ | ⟨-, a2, a3, a4⟩⟩
    · rw [hq] at a2
      exact absurd a2 hmin
    · rw [hq] at a1
      cases a1
    · rw [hq] at b1
      exact ⟨s', a2, by rw [a3, h1], by rw [a4, h2], b1⟩
  have acc : ∀ s, P 12 s → ∃ s', s.attempt (push pow) = .ok (.accepted s') ∧ P 12 s' := by
    rintro s ⟨h1, h2, h3⟩
    have hq : embCtl (push pow) s.x s.t (pushH 12) = ⟨pushH 12, true, false⟩ := by
      rw [h1, h2]
      show CtlParams.control _ _ _ (⟨|((embOut (round (binary 53) dopri45) pushRhs (fun _ => ⟨1⟩) ⟨1000⟩ (pushH 12) 0 -
        embOut (round (binary 53) dopri45) pushRhs (fun _ => ⟨1⟩) ⟨1000⟩ (pushH 12) 1 : Vec (binary 53 : ℚ → ℚ) 1) 0).val|⟩ : Rd (binary 53 : ℚ → ℚ)) _ = _
      rw [push_last.1, push_last.2]
      unfold CtlParams.control
      rw [if_pos (by decide +kernel)]
    rcases attempt_ops (m := push pow) rfl hne hsz h3 with ⟨a1, -⟩ | ⟨-, s', b1, ⟨-, a2, a3, a4⟩ | ⟨a1, -⟩⟩
    · rw [hq] at a1
      cases a1
    · rw [hq] at b1
      refine ⟨s', a2, by rw [a3, h1]; exact push_time.1, ?_, b1⟩
      rw [a4, h1, h2]
      exact push_last.2
    · rw [hq] at a1
      cases a1
  have step : ∀ n i, n + i = 12 → ∀ k, n + 1 ≤ k → ∀ s, P i s → ∃ ns s', (emb (push pow) k).doStep s = (ns, .ok s') ∧ P 12 s' := by
    intro n
    induction n with
    | zero =>
      intro i hi k hk s hs
      obtain rfl : i = 12 := by omega
      obtain ⟨k, rfl⟩ : ∃ k', k = k' + 1 := ⟨k - 1, by omega⟩
      obtain ⟨s', a1, a2⟩ := acc s hs
      exact ⟨_, s', by simp only [emb]; rw [passes, a1], a2⟩
    | succ n ih =>
      intro i hi k hk s hs
      obtain ⟨k, rfl⟩ : ∃ k', k = k' + 1 := ⟨k - 1, by omega⟩
      obtain ⟨s', a1, a2⟩ := rej i (by omega) s hs
      obtain ⟨ns, s'', b1, b2⟩ := ih (i + 1) (by omega) k (by omega) s' a2
      simp only [emb] at b1 ⊢
      refine ⟨noteOf s'.t s'.x s'.log ++ ns, s'', ?_, b2⟩
      rw [passes, a1]
      simp only [b1]
  have run : ∀ fuel s, (P 0 s ∨ P 12 s) → runLoop (emb (push pow) j) (⟨1000⟩ + ⟨1⟩ : Rd (binary 53 : ℚ → ℚ)) fuel s = none := by
    intro fuel
    induction fuel with
    | zero => intro s _; rfl
    | succ fuel ih =>
      intro s hs
      obtain ⟨ns, s', a1, a2⟩ : ∃ ns s', (emb (push pow) j).doStep s = (ns, .ok s') ∧ P 12 s' := by
        rcases hs with hs | hs
        · exact step 12 0 rfl j hj s hs
        · exact step 0 12 rfl j (by omega) s hs
      rw [runLoop, a1]
      simp only
      have hlt : (emb (push pow) j).time s' < (⟨1000⟩ + ⟨1⟩ : Rd (binary 53 : ℚ → ℚ)) := by
        show s'.t < _
        rw [a2.1]
        exact push_time.2.1
      rw [if_pos hlt, ih s' (.inr a2)]
      rfl
  unfold solveOde
  rw [if_pos (show (emb (push pow) j).hasRhs (pushAt (1 / 100)) = true from rfl), initOutput_ok _ (by simp [Outputs.Start])]
  have e : (emb (push pow) j).time (pushAt (1 / 100)) + (⟨1⟩ : Rd (binary 53 : ℚ → ℚ)) = ⟨1000⟩ + ⟨1⟩ := rfl
  simp only [e, run fuel (pushAt (1 / 100)) (.inl ⟨rfl, rfl, .inl ⟨rfl, rfl⟩⟩)]

/-- A case for `C129_simple_partial`: the same run ends when the minimal step size is `10^-11`. -/
example (pow : Rd (binary 53 : ℚ → ℚ) → Rd (binary 53 : ℚ → ℚ) → Rd (binary 53 : ℚ → ℚ)) :
    ∃ j evs res, (∀ k ≥ j, solveOde (emb { push pow with hMin := ⟨1 / 10 ^ 11⟩ } k) ⟨none, none, none⟩ ⟨1⟩ (3 * 10 ^ 11) (pushAt (1 / 100)) =
        some (evs, res)) ∧
      (res = .error (.exc "Step size has decreased to the minimum or below") ∨ ∃ s', res = .ok s' ∧ (⟨1000⟩ + ⟨1⟩ : Rd (binary 53 : ℚ → ℚ)) ≤ s'.t) :=
  C129_simple_partial (binary_rounds 53) (by norm_num) { push pow with hMin := ⟨1 / 10 ^ 11⟩ } rfl (by simp [push, round, dopri45]) push_sizes
    (roundCtl (binary 53) .default) pow rfl (by decide +kernel) (by decide +kernel) (by decide +kernel) 1000 1 (by norm_num)
    (by show (0 : ℚ) < 1 / 10 ^ 11; norm_num) (by show 4 * (1 / 2 ^ 53 * (|1000| + 1)) ≤ (1 : ℚ) / 10 ^ 11; norm_num) _
    (by simp [Outputs.Start]) (pushAt (1 / 100)) rfl (.lit _ (1 / 100)) (by show (1 / 10 ^ 11 : ℚ) < binary 53 (1 / 100); decide +kernel)
    (.inl ⟨rfl, rfl⟩) _ (by show 5 * 1 + 2 * ((1 : ℚ) / 10 ^ 11) ≤ 2 * ((3 * 10 ^ 11 : Nat) : ℚ) * (1 / 10 ^ 11); norm_num)

/-- A function that meets the condition of `C129_forever_false` -/
example : ∃ pow : Rd (binary 53 : ℚ → ℚ) → Rd (binary 53 : ℚ → ℚ) → Rd (binary 53 : ℚ → ℚ),
    ∀ a : Rd (binary 53 : ℚ → ℚ), 0 < a.val → a.val ≤ 2 / 10 ^ 6 → (pow a (.lit _ (1 / 5))).val < 1 / 10 :=
  ⟨fun a _ => a, fun a _ h => by
    show a.val < 1 / 10
    linarith⟩

end Verif.Round
