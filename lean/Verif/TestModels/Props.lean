import Verif.TestModels.Model
import Mathlib.Analysis.SpecialFunctions.Trigonometric.Deriv
import Verif.Event.Props
import Verif.RK.Spec
import Mathlib.Analysis.Calculus.MeanValue
import Mathlib.Analysis.Calculus.Deriv.Pow
import Mathlib.Analysis.Calculus.Deriv.Mul

/-! # Properties C58, C59, C67: bouncing ball and chain of oscillators -/

set_option linter.unusedSectionVars false

namespace Verif.TestModels

open Verif.Res Verif.RK Verif.Event

section Ball
variable {K : Type} [Field K] [LinearOrder K] [IsStrictOrderedRing K]

/-- C58. With a recovery factor in [0, 1] an impact does not increase the magnitude of the
velocity, and the velocity after it is zero or of opposite sign; an impact on the ground (height
zero) does not increase mechanical energy and leaves the ball on the ground. -/
theorem C58_impact (b : Ball K) (h0 : 0 ≤ b.recovery) (h1 : b.recovery ≤ 1) (s : Bool)
    (x : K × K) :
    |(b.switch s x).2.2| ≤ |x.2| ∧ ((b.switch s x).2.2 = 0 ∨ (b.switch s x).2.2 * x.2 < 0) ∧
    (x.1 = 0 → (b.switch s x).2.1 = 0 ∧
      (b.switch s x).2.2 ^ 2 / 2 + b.g * (b.switch s x).2.1 ≤ x.2 ^ 2 / 2 + b.g * x.1) := by
  unfold Ball.switch
  split_ifs with ha hb
  · refine ⟨by simp, .inl rfl, fun h => ⟨rfl, ?_⟩⟩
    rw [h]
    have := sq_nonneg x.2
    simp only [mul_zero, add_zero]
    linarith
  · have e1 : |x.2 * -b.recovery| = b.recovery * |x.2| := by
      rw [abs_mul, abs_neg, abs_of_nonneg h0, mul_comm]
    refine ⟨?_, ?_, fun h => ⟨h, ?_⟩⟩
    · rw [e1]
      exact mul_le_of_le_one_left (abs_nonneg _) h1
    · rcases eq_or_lt_of_le h0 with h | h
      · left; rw [← h]; simp
      · right
        have := mul_pos (mul_pos_of_neg_of_neg hb hb) h
        have e : x.2 * -b.recovery * x.2 = -(x.2 * x.2 * b.recovery) := by ring
        rw [e]; linarith
    · rw [h]
      have e : (x.2 * -b.recovery) ^ 2 = b.recovery ^ 2 * x.2 ^ 2 := by ring
      have : b.recovery ^ 2 ≤ 1 := pow_le_one₀ h0 h1
      have := mul_le_of_le_one_left (sq_nonneg x.2) this
      simp only [mul_zero, add_zero]
      rw [e]; linarith
  · refine ⟨by simp, .inl rfl, fun h => ⟨rfl, ?_⟩⟩
    rw [h]
    have := sq_nonneg x.2
    simp only [mul_zero, add_zero]
    linarith

/-- C58. Sticking is final: no later switch ends it, the right-hand side is zero, and any step of
any Runge-Kutta method leaves the state as it is. -/
theorem C58_sticking (b : Ball K) (x : K × K) :
    (b.switch true x).1 = true ∧ b.rhs true x = 0 ∧
    ∀ (T : Tableau K) (t h : K) (ix : Nat), T.output (fun _ => b.rhs true) t h x ix = x := by
  refine ⟨?_, rfl, ?_⟩
  · unfold Ball.switch; split_ifs <;> rfl
  · intro T t h ix
    have : ∀ i, T.stage (fun _ => b.rhs true) t h x i = 0 := by
      intro i; rw [Tableau.stage_eq]; rfl
    unfold Tableau.output
    simp [this]

/-- The ball begins to stick exactly when it hits slower than the stick speed or when it moves
upwards at the event; then it stops on the ground. -/
theorem C58_stick_iff (b : Ball K) (x : K × K) :
    (b.switch false x).1 = true ↔ |x.2| < b.stickSpeed ∨ 0 ≤ x.2 := by
  unfold Ball.switch
  split_ifs with ha hb
  · simp [ha]
  · simp [ha, hb]
  · simp [not_lt.1 hb]

example : (⟨10, 1/2, 1/100⟩ : Ball ℚ).switch false (0, -3) = (false, (0, 3/2)) ∧
    (⟨10, 1/2, 1/100⟩ : Ball ℚ).switch false (0, -1/1000) = (true, (0, 0)) := by decide +kernel

/-- States of a solver with the ball and the event controller, before a step; steps propose
anything. -/
inductive BallRun (b : Ball K) : Pt K (K × K) Bool → Prop
  | start (p : Pt K (K × K) Bool) (h1 : p.e.clean = true) (h2 : 0 ≤ p.x.1) : BallRun b p
  | restart (p : Pt K (K × K) Bool) (q : Bool) (x : K × K) (t : K) (h1 : BallRun b p)
      (h2 : 0 ≤ x.1) : BallRun b ⟨p.e.reset, q, x, t⟩
  | step (p p' : Pt K (K × K) Bool) (x2 : K × K) (t2 : K) (tr : Trunc) (h1 : BallRun b p)
      (h2 : Step b.ev p x2 t2 p' tr) : BallRun b p'

theorem ball_start (b : Ball K) (q : Bool) (x : K × K) (t : K) (h : 0 ≤ x.1) :
    StartOk b.ev 1 q x t := by
  refine ⟨by decide, rfl, rfl, ?_⟩
  intro i hi
  have : i = 0 := by omega
  subst this
  refine ⟨by simp [Ball.ev], fun _ => h, fun hc => ?_⟩
  simp [Ball.ev] at hc

theorem ball_step (b : Ball K) (p : Pt K (K × K) Bool)
    (hp : (p.e.clean = true ∧ 0 ≤ p.x.1) ∨ (Armed p.e 1 ∧ p.e.flags = [1] ∧ p.e.zf1 = [p.x.1])) :
    ∃ e, p.e.atStepStart b.ev p.q p.x p.t = .ok e ∧ Armed e 1 ∧ e.t1 = p.t ∧ e.flags = [1] ∧
      e.zf1 = [p.x.1] := by
  rcases hp with ⟨hc, hx⟩ | ⟨ha, hf, hz⟩
  · have hs := ball_start b p.q p.x p.t hx
    obtain ⟨e', h1, h2, h3, h4, h5, h6, h7, h8, h9⟩ := atStepStart_clean b.ev p.q p.e p.x p.t hc
      hs.pos hs.count hs.flags rfl
    obtain ⟨e2, k1, k2, k3⟩ := atStepStart_armed b.ev (fun _ _ _ => rfl) p.q p.e p.x p.t
      (.inl ⟨hc, hs⟩)
    rw [h1] at k1
    cases k1
    exact ⟨e', h1, k2, k3, h5, h4⟩
  · refine ⟨_, atStepStart_dirty b.ev p.q p.e p.x p.t ha.clean, ?_, rfl, hf, hz⟩
    exact ⟨ha.clean, ha.haveZf, ha.pos, ha.zf1, ha.flags, ha.state, ha.haveRec, ha.side⟩

/-- What a step does to the ball. -/
theorem ball_outcome (b : Ball K) (p p' : Pt K (K × K) Bool)
    (hp : (p.e.clean = true ∧ 0 ≤ p.x.1) ∨ (Armed p.e 1 ∧ p.e.flags = [1] ∧ p.e.zf1 = [p.x.1]))
    (x2 : K × K) (t2 : K) (tr : Trunc) (hs : Step b.ev p x2 t2 p' tr) :
    (Armed p'.e 1 ∧ p'.e.flags = [1] ∧ p'.e.zf1 = [p'.x.1]) ∧
    (tr.truncated = true → p'.x.1 = 0 ∧
      ∃ v, (p'.q, p'.x) = b.switch p.q (0, v)) := by
  obtain ⟨e, h1, h2, h3, h4, h5⟩ := ball_step b p hp
  obtain ⟨e1, hs1, he⟩ := hs
  rw [h1] at hs1
  cases hs1
  have ho := C42_partial b.ev 1 (fun _ _ _ => rfl) p.q e h2 p.x x2 t2
  rw [he] at ho
  obtain ⟨pe, pq, px, pt⟩ := p'
  cases ho with
  | quiet _ a1 a2 a3 a4 a5 =>
    refine ⟨⟨a2, by simpa [h4] using a4, a3⟩, fun h => by simp [Trunc.none] at h⟩
  | event _ i τ q' y a1 a2 a3 a4 a5 a6 a7 a8 a9 a10 a11 =>
    have hi : i = 0 := by omega
    subst hi
    have hz : (1 - τ) * p.x.1 + τ * x2.1 = 0 := by
      rw [h5] at a5; exact a5
    have hy : (((1 - τ) • p.x + τ • x2 : K × K)).1 = 0 := by
      simp only [Prod.fst_add, Prod.smul_fst, smul_eq_mul]; exact hz
    have ha7 : b.switch p.q ((1 - τ) • p.x + τ • x2) = (pq, px) := a7
    have hpx : px.1 = 0 := by
      unfold Ball.switch at ha7
      split_ifs at ha7 <;> (simp only [Prod.mk.injEq] at ha7; rw [← ha7.2])
      exact hy
    refine ⟨⟨?_, by rw [a9]; exact h4, ?_⟩, fun _ => ⟨hpx, ((1 - τ) • p.x + τ • x2).2, ?_⟩⟩
    · refine a8 ?_
      intro j hj hf
      have : j = 0 := by omega
      subst this
      rw [h4] at hf
      exact absurd rfl hf
    · have hl : pe.zf1.length = 1 := a11
      have hv : pe.zf1.getD 0 0 = 0 := by
        have := a10 0 (by decide) (by rw [h4]; rfl)
        rw [h5] at this
        exact this.trans hz
      obtain ⟨z, hzf⟩ := List.length_eq_one_iff.1 hl
      show pe.zf1 = [px.1]
      rw [hzf] at hv ⊢
      rw [hpx]
      simpa using hv
    · rw [← ha7]
      congr 1
      exact Prod.ext hy rfl

theorem BallRun.inv {b : Ball K} {p : Pt K (K × K) Bool} (h : BallRun b p) :
    (p.e.clean = true ∧ 0 ≤ p.x.1) ∨ (Armed p.e 1 ∧ p.e.flags = [1] ∧ p.e.zf1 = [p.x.1]) := by
  induction h with
  | start p h1 h2 => exact .inl ⟨h1, h2⟩
  | restart p q x t _ h2 _ => exact .inl ⟨rfl, h2⟩
  | step p p' x2 t2 tr h1 h2 ih => exact .inr (ball_outcome b p p' ih x2 t2 tr h2).1

/-- C67. Started at or above the ground, the ball is at or above the ground after every step,
whatever states the integration method proposes. -/
theorem C67_above_ground (b : Ball K) (p : Pt K (K × K) Bool) (h : BallRun b p) : 0 ≤ p.x.1 := by
  rcases h.inv with ⟨_, h⟩ | ⟨ha, hf, hz⟩
  · exact h
  · have := ha.side 0 (by decide)
    rw [hf, hz] at this
    rcases this with ⟨_, h, _⟩ | ⟨h, _⟩ | ⟨h, _⟩
    · exact h
    · simp at h
    · simp at h

/-- C67. After a step cut by an impact the ball is on the ground and does not move downwards. -/
theorem C67_after_impact (b : Ball K) (h0 : 0 ≤ b.recovery) (p p' : Pt K (K × K) Bool)
    (h : BallRun b p) (x2 : K × K) (t2 : K) (tr : Trunc) (hs : Step b.ev p x2 t2 p' tr)
    (ht : tr.truncated = true) : p'.x.1 = 0 ∧ 0 ≤ p'.x.2 := by
  obtain ⟨h1, v, h2⟩ := (ball_outcome b p p' h.inv x2 t2 tr hs).2 ht
  refine ⟨h1, ?_⟩
  unfold Ball.switch at h2
  split_ifs at h2 with ha hb <;> (simp only [Prod.mk.injEq] at h2; rw [h2.2])
  have : 0 ≤ (-v) * b.recovery := mul_nonneg (by simpa using hb.le) h0
  simp only at this ⊢
  linarith

/-- C67. A step faults only if the method proposes a state exactly on the ground. -/
theorem C67_no_fault (b : Ball K) (p : Pt K (K × K) Bool) (h : BallRun b p) (x2 : K × K) (t2 : K)
    (hx : x2.1 ≠ 0) : ∃ p' tr, Step b.ev p x2 t2 p' tr := by
  obtain ⟨e, h1, h2, h3, h4, h5⟩ := ball_step b p h.inv
  have ho := C42_partial b.ev 1 (fun _ _ _ => rfl) p.q e h2 p.x x2 t2
  cases hr : e.atStepEnd b.ev p.q p.x x2 t2 with
  | ok v =>
    obtain ⟨⟨e', q'⟩, y, t', tr⟩ := v
    exact ⟨⟨e', q', y, t'⟩, tr, e, h1, hr⟩
  | error f =>
    rw [hr] at ho
    exfalso
    cases ho with
    | zeroByZero i a1 a2 a3 a4 =>
      have : i = 0 := by omega
      subst this
      exact hx a4
    | landing i a1 a2 a3 =>
      have : i = 0 := by omega
      subst this
      exact hx (a3 0 a1 a2).1

/-- A ball at height 1 and a proposed height -1: the step is cut half way and the ball bounces. -/
example : ∃ p', BallRun (⟨10, 1/2, 1/100⟩ : Ball ℚ) p' ∧ p'.x = (0, 1) ∧ p'.t = 1/2 := by
  have : ∃ e, (Ctl.init : Ctl ℚ).atStepStart (⟨10, 1/2, 1/100⟩ : Ball ℚ).ev false (1, 0) 0 = .ok e ∧
      ∃ v, e.atStepEnd (⟨10, 1/2, 1/100⟩ : Ball ℚ).ev false (1, 0) (-1, -4) 1 = .ok v ∧
        v.2.1 = (0, 1) ∧ v.2.2.1 = 1/2 ∧ v.1.2 = false := by
    refine ⟨_, rfl, ?_⟩
    exact Verif.Res.exists_of_test (p := fun v => decide (v.2.1 = (0, 1) ∧ v.2.2.1 = 1/2 ∧
      v.1.2 = false)) (by decide +kernel) |>.imp fun v hv => ⟨hv.1, of_decide_eq_true hv.2⟩
  obtain ⟨e, h1, ⟨⟨⟨e', q'⟩, y, t', tr⟩, h2, h3, h4, h5⟩⟩ := this
  exact ⟨⟨e', q', y, t'⟩, .step ⟨Ctl.init, false, (1, 0), 0⟩ _ _ _ tr
    (.start _ rfl (by norm_num)) ⟨e, h1, h2⟩, h3, h4⟩

end Ball

section Chain

/-- Deformation of spring `i`, between mass `i - 1` (or the wall) and mass `i`. -/
def deform {K : Type} [Field K] (x : List K) (i : Nat) : K :=
  x.getD i 0 - (if i = 0 then 0 else x.getD (i - 1) 0)

/-- Total energy documented in the help text of the model: kinetic energy of unit masses, energy
of the springs `c0 d²/2 + c2 d⁴/4`, potential of the constant force on the last mass. -/
def energy {K : Type} [Field K] (n : Nat) (c0 c2 f : K) (x : List K) : K :=
  ∑ i ∈ Finset.range n, ((x.getD (n + i) 0) ^ 2 / 2 + c0 * deform x i ^ 2 / 2
    + c2 * deform x i ^ 4 / 4) - (if n = 0 then 0 else f * x.getD (n - 1) 0)

variable {K : Type} [Field K] [LinearOrder K] [IsStrictOrderedRing K]

/-- What `rhs` computes. -/
theorem chain_rhs (p : Chain K) (dst x : List K) (hx : x.length = 2 * p.count) :
    ∃ y, p.rhs dst x = .ok y ∧ y.length = 2 * p.count ∧ ∀ i, i < p.count →
      y.getD i 0 = x.getD (p.count + i) 0 ∧
      y.getD (p.count + i) 0 = -p.force (deform x i)
        + (if i + 1 < p.count then p.force (deform x (i + 1)) else p.f) := by
  unfold Chain.rhs
  have := loop_post (lo := 0) (hi := p.count)
    (s := (dst ++ List.replicate (2 * p.count) 0).take (2 * p.count)) (f := p.rhsStep x)
    (fun k y => y.length = 2 * p.count ∧ ∀ i, i < k →
      y.getD i 0 = x.getD (p.count + i) 0 ∧
      y.getD (p.count + i) 0 = -p.force (deform x i)
        + (if i + 1 < p.count then p.force (deform x (i + 1)) else p.f))
    (E := fun _ => False) (Nat.zero_le _)
    ⟨by simp, fun i hi => absurd hi (Nat.not_lt_zero i)⟩ (by
      rintro j y - hj ⟨hl, hy⟩
      unfold Chain.rhsStep
      rw [at_getD (by omega) 0]
      simp only [bind_ok]
      rw [atSet_lt (by omega), at_getD (l := x) (i := j) (by omega) 0]
      simp only [bind_ok]
      have hd : (if 0 < j then (do
          let xp ← at' x (j - 1)
          .ok (x.getD j 0 - xp) : Res K) else .ok (x.getD j 0)) = .ok (deform x j) := by
        unfold deform
        by_cases h0 : j = 0
        · subst h0; simp
        · rw [if_pos (by omega), if_neg h0, at_getD (by omega) 0]; rfl
      rw [hd]
      simp only [bind_ok]
      have hf : (if j + 1 < p.count then (do
            let xn ← at' x (j + 1)
            .ok (-p.force (deform x j) + p.force (xn - x.getD j 0)) : Res K)
          else if j + 1 = p.count then .ok (-p.force (deform x j) + p.f)
          else .ok (-p.force (deform x j)))
          = .ok (-p.force (deform x j)
            + (if j + 1 < p.count then p.force (deform x (j + 1)) else p.f)) := by
        by_cases h1 : j + 1 < p.count
        · rw [if_pos h1, if_pos h1, at_getD (by omega) 0]
          simp [deform]
        · rw [if_neg h1, if_neg h1, if_pos (by omega)]
      rw [hf]
      simp only [bind_ok]
      rw [atSet_lt (by rw [List.length_set]; omega), post_ok]
      refine ⟨by simpa using hl, ?_⟩
      intro i hi
      have hg : ∀ a b : K, ∀ m, ((y.set j a).set (p.count + j) b).getD m 0
          = if m = p.count + j then b else if m = j then a else y.getD m 0 := by
        intro a b m
        rw [getD_set (by rw [List.length_set]; omega), getD_set (by omega)]
      rw [hg, hg]
      by_cases hij : i = j
      · subst hij
        rw [if_neg (by omega), if_pos rfl, if_pos rfl]
        exact ⟨rfl, rfl⟩
      · rw [if_neg (by omega), if_neg hij, if_neg (by omega), if_neg (by omega)]
        exact hy i (by omega))
  rw [post_false_iff] at this
  exact this

end Chain

/-- C59. Along every solution of the equations defined by the code the energy is constant, for
any number of masses and any parameters. -/
theorem C59_energy (p : Chain ℝ) (a b : ℝ) (y : ℝ → List ℝ)
    (hy : ∀ t, (y t).length = 2 * p.count)
    (hsol : ∀ t ∈ Set.Icc a b, ∃ dy, p.rhs [] (y t) = .ok dy ∧ ∀ i, i < 2 * p.count →
      HasDerivAt (fun s => (y s).getD i 0) (dy.getD i 0) t) :
    ∀ t ∈ Set.Icc a b, energy p.count p.c0 p.c2 p.f (y t) = energy p.count p.c0 p.c2 p.f (y a) := by
  have hder : ∀ t ∈ Set.Icc a b,
      HasDerivAt (fun s => energy p.count p.c0 p.c2 p.f (y s)) 0 t := by
    intro t ht
    obtain ⟨dy, h1, h2⟩ := hsol t ht
    obtain ⟨dy', k1, k2, k3⟩ := chain_rhs p [] (y t) (hy t)
    rw [h1] at k1
    cases k1
    -- derivative of a deformation
    have hdef : ∀ i, i < p.count → HasDerivAt (fun s => deform (y s) i)
        (dy.getD i 0 - (if i = 0 then 0 else dy.getD (i - 1) 0)) t := by
      intro i hi
      unfold deform
      by_cases h0 : i = 0
      · simp only [if_pos h0]
        exact (h2 i (by omega)).sub (hasDerivAt_const t 0)
      · simp only [if_neg h0]
        exact (h2 i (by omega)).sub (h2 (i - 1) (by omega))
    have hterm : ∀ i ∈ Finset.range p.count, HasDerivAt (fun s => ((y s).getD (p.count + i) 0) ^ 2 / 2
        + p.c0 * deform (y s) i ^ 2 / 2 + p.c2 * deform (y s) i ^ 4 / 4)
        ((y t).getD (p.count + i) 0 * dy.getD (p.count + i) 0
          + p.force (deform (y t) i) * (dy.getD i 0 - (if i = 0 then 0 else dy.getD (i - 1) 0))) t := by
      intro i hi
      have hi := Finset.mem_range.1 hi
      have e1 := ((h2 (p.count + i) (by omega)).pow 2).div_const 2
      have e2 := (((hdef i hi).pow 2).const_mul p.c0).div_const 2
      have e3 := (((hdef i hi).pow 4).const_mul p.c2).div_const 4
      refine ((e1.add e2).add e3).congr_deriv ?_
      unfold Chain.force
      norm_num
      ring
    have hlast : HasDerivAt (fun s => if p.count = 0 then 0 else p.f * (y s).getD (p.count - 1) 0)
        (if p.count = 0 then 0 else p.f * dy.getD (p.count - 1) 0) t := by
      by_cases h0 : p.count = 0
      · simp only [if_pos h0]; exact hasDerivAt_const t 0
      · simp only [if_neg h0]
        exact (h2 (p.count - 1) (by omega)).const_mul p.f
    have hall := (HasDerivAt.fun_sum hterm).sub hlast
    refine hall.congr_deriv ?_
    -- power of the forces telescopes
    obtain ⟨G, hG⟩ : ∃ G : Nat → ℝ, ∀ i, G i = (if i = 0 then 0 else dy.getD (i - 1) 0)
        * (if i < p.count then p.force (deform (y t) i) else p.f) := ⟨_, fun _ => rfl⟩
    have htel : ∀ i ∈ Finset.range p.count,
        (y t).getD (p.count + i) 0 * dy.getD (p.count + i) 0
          + p.force (deform (y t) i) * (dy.getD i 0 - (if i = 0 then 0 else dy.getD (i - 1) 0))
        = G (i + 1) - G i := by
      intro i hi
      have hi := Finset.mem_range.1 hi
      obtain ⟨k4, k5⟩ := k3 i hi
      rw [hG, hG]
      simp only [Nat.add_one_ne_zero, if_false, Nat.add_sub_cancel, if_pos hi]
      rw [k5, ← k4]
      ring
    rw [Finset.sum_congr rfl htel, Finset.sum_range_sub, hG, hG]
    by_cases h0 : p.count = 0
    · simp [h0]
    · simp only [if_neg h0, lt_irrefl, if_false, if_true]; ring
  intro t ht
  exact constant_of_has_deriv_right_zero
    (fun s hs => (hder s hs).continuousAt.continuousWithinAt)
    (fun s hs => (hder s ⟨hs.1, hs.2.le⟩).hasDerivWithinAt) t ht

/-- The equations have solutions that move: one mass on a linear spring swings as
`(sin t, cos t)`; its energy is 1/2. -/
example : ∀ t ∈ Set.Icc (0 : ℝ) 10, ∃ dy, (⟨1, 1, 0, 0⟩ : Chain ℝ).rhs []
      [Real.sin t, Real.cos t] = .ok dy ∧ ∀ i, i < 2 * 1 →
      HasDerivAt (fun s => [Real.sin s, Real.cos s].getD i 0) (dy.getD i 0) t := by
  intro t _
  refine ⟨[Real.cos t, -(Real.sin t * (1 + 0 * Real.sin t * Real.sin t)) + 0], rfl, ?_⟩
  intro i hi
  have : i = 0 ∨ i = 1 := by omega
  rcases this with rfl | rfl
  · exact Real.hasDerivAt_sin t
  · have := Real.hasDerivAt_cos t
    refine this.congr_deriv ?_
    simp

/-- Rest, with the force balanced by the springs. -/
example : ∃ dy, (⟨2, 1, 0, 1⟩ : Chain ℚ).rhs [] [1, 2, 0, 0] = .ok dy ∧ dy = [0, 0, 0, 0] :=
  ⟨_, rfl, by decide +kernel⟩

end Verif.TestModels
