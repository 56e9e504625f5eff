import Verif.TestModels.More
import Verif.RK.Converge
import Verif.Implicit.EulerProps
import Mathlib.Analysis.SpecialFunctions.Trigonometric.Deriv
import Mathlib.Analysis.SpecialFunctions.ExpDeriv
import Mathlib.Analysis.SpecificLimits.Basic

/-! # C103, C104: the linear test models and what the solvers make of them -/

namespace Verif.TestModels

open Verif.Res Verif.RK

section
variable {V E : Type} [AddCommGroup V] [Module ℝ V]

/-- One step of the explicit Euler method in plain form -/
theorem euler_output (f : ℝ → V → V) (t h : ℝ) (x : V) :
    ((euler.cast ℝ).tableau 1).output f t h x 0 = x + h • f t x := by
  have hb : ((euler.cast ℝ).tableau 1).b 0 0 = 1 := by
    show (euler.cast ℝ).B 1 0 0 = 1
    rw [cast_B, show euler.B 1 0 0 = 1 by decide +kernel]; simp
  unfold Tableau.output
  show x + h • ∑ i ∈ Finset.range 1, _ = _
  rw [Finset.sum_range_one, hb, one_smul, Tableau.stage_eq]
  congr 2
  show f (t + h * 0) (x + h • ∑ j ∈ Finset.range 0, _) = _
  simp

/-- One step of the classical Runge-Kutta method in plain form -/
theorem rk4_output (f : ℝ → V → V) (t h : ℝ) (x : V) :
    ∃ k1 k2 k3 k4, k1 = f t x ∧ k2 = f (t + h / 2) (x + (h / 2) • k1) ∧ k3 = f (t + h / 2) (x + (h / 2) • k2) ∧
      k4 = f (t + h) (x + h • k3) ∧
      ((rk4.cast ℝ).tableau 4).output f t h x 0 = x + (h / 6) • (k1 + (2 : ℝ) • k2 + (2 : ℝ) • k3 + k4) := by
  obtain ⟨T, hT⟩ : ∃ T, T = (rk4.cast ℝ).tableau 4 := ⟨_, rfl⟩
  have hA : ∀ i j, T.a i j = ((rk4.A i j : ℚ) : ℝ) := by rw [hT]; exact fun i j => cast_A rk4 i j
  have hB : ∀ i, T.b 0 i = ((rk4.B 4 0 i : ℚ) : ℝ) := by rw [hT]; exact fun i => cast_B rk4 4 0 i
  have hC : ∀ i, T.c i = ((rk4.C i : ℚ) : ℝ) := by rw [hT]; exact fun i => cast_C rk4 i
  have hs : T.s = 4 := by rw [hT]; rfl
  rw [← hT]
  refine ⟨T.stage f t h x 0, T.stage f t h x 1, T.stage f t h x 2, T.stage f t h x 3, ?_, ?_, ?_, ?_, ?_⟩
  · rw [Tableau.stage_eq, hC, show rk4.C 0 = 0 by decide +kernel]; simp
  · rw [Tableau.stage_eq, hC, Finset.sum_range_one, hA, show rk4.C 1 = 1 / 2 by decide +kernel,
      show rk4.A 1 0 = 1 / 2 by decide +kernel, smul_smul]
    push_cast
    congr 2; · ring
    congr 1; ring
  · rw [Tableau.stage_eq, hC, Finset.sum_range_succ, Finset.sum_range_one, hA, hA,
      show rk4.C 2 = 1 / 2 by decide +kernel,
      show rk4.A 2 0 = 0 by decide +kernel, show rk4.A 2 1 = 1 / 2 by decide +kernel]
    push_cast
    rw [zero_smul, zero_add, smul_smul]
    congr 2; · ring
    congr 1; ring
  · rw [Tableau.stage_eq, hC, Finset.sum_range_succ, Finset.sum_range_succ, Finset.sum_range_one, hA, hA, hA,
      show rk4.C 3 = 1 by decide +kernel,
      show rk4.A 3 0 = 0 by decide +kernel, show rk4.A 3 1 = 0 by decide +kernel,
      show rk4.A 3 2 = 1 by decide +kernel]
    push_cast
    rw [zero_smul, zero_add, zero_smul, zero_add, one_smul, mul_one]
  · unfold Tableau.output
    rw [hs, Finset.sum_range_succ, Finset.sum_range_succ, Finset.sum_range_succ, Finset.sum_range_one, hB, hB, hB, hB,
      show rk4.B 4 0 0 = 1 / 6 by decide +kernel, show rk4.B 4 0 1 = 1 / 3 by decide +kernel,
      show rk4.B 4 0 2 = 1 / 3 by decide +kernel, show rk4.B 4 0 3 = 1 / 6 by decide +kernel]
    push_cast
    module

end

/-- What `rhs` of the oscillator computes. -/
theorem osc_rhs {K : Type} [Field K] (o : Oscillator K) (dst : List K) (u v : K) :
    o.rhs dst [u, v] = .ok [v, o.f - o.c * u] := by
  have hr : ∃ a b, resized 2 dst = [a, b] := by
    have : (resized 2 dst).length = 2 := by simp [resized]
    match h : resized 2 dst, this with
    | [a, b], _ => exact ⟨a, b, rfl⟩
  obtain ⟨a, b, hr⟩ := hr
  unfold Oscillator.rhs
  simp only [hr]
  rfl

/-- Energy of the oscillator relative to its rest position `f / c`, times `2 c` -/
def excess {K : Type} [Field K] (c f : K) (x : K × K) : K := c * x.2 ^ 2 + (c * x.1 - f) ^ 2

/-- C103. The energy of the oscillator is constant along every solution of the equations defined by the code. -/
theorem C103_energy (o : Oscillator ℝ) (a b : ℝ) (u v : ℝ → ℝ)
    (hsol : ∀ t ∈ Set.Icc a b, ∃ du dv, o.rhs [] [u t, v t] = .ok [du, dv] ∧
      HasDerivAt u du t ∧ HasDerivAt v dv t) :
    ∀ t ∈ Set.Icc a b, v t ^ 2 / 2 + o.c * u t ^ 2 / 2 - o.f * u t = v a ^ 2 / 2 + o.c * u a ^ 2 / 2 - o.f * u a := by
  have hder : ∀ t ∈ Set.Icc a b, HasDerivAt (fun t => v t ^ 2 / 2 + o.c * u t ^ 2 / 2 - o.f * u t) 0 t := by
    intro t ht
    obtain ⟨du, dv, h1, h2, h3⟩ := hsol t ht
    rw [osc_rhs] at h1
    simp only [Except.ok.injEq, List.cons.injEq, and_true] at h1
    obtain ⟨rfl, rfl⟩ := h1
    have e := (((h3.pow 2).div_const 2).add (((h2.pow 2).const_mul o.c).div_const 2)).sub (h2.const_mul o.f)
    refine e.congr_deriv ?_
    norm_num
    ring
  intro t ht
  exact constant_of_has_deriv_right_zero
    (fun s hs => (hder s hs).continuousAt.continuousWithinAt)
    (fun s hs => (hder s ⟨hs.1, hs.2.le⟩).hasDerivWithinAt) t ht

/-- A method whose right-hand side is that of the oscillator -/
def OscMethod {E : Type} (o : Oscillator ℝ) (m : Method ℝ (ℝ × ℝ) E) : Prop :=
  ∀ t u v, o.rhs [] [u, v] = .ok [(m.rhs t (u, v)).1, (m.rhs t (u, v)).2]

theorem OscMethod.rhs_eq {E : Type} {o : Oscillator ℝ} {m : Method ℝ (ℝ × ℝ) E} (h : OscMethod o m) (t : ℝ)
    (x : ℝ × ℝ) : m.rhs t x = (x.2, o.f - o.c * x.1) := by
  have := h t x.1 x.2
  rw [osc_rhs] at this
  simp only [Except.ok.injEq, List.cons.injEq, and_true] at this
  exact Prod.ext this.1.symm this.2.symm

/-- A run of the fixed-step solver multiplies the energy excess by `g` at every step, if one step of the method
does. -/
theorem osc_run {E : Type} {o : Oscillator ℝ} {m : Method ℝ (ℝ × ℝ) E} {co : Coefficients ℚ} {s : Nat} (hs : 1 ≤ s)
    (hpk : (co.tableau s).pack 1 (-1) = co) (hm : m.co = co.cast ℝ) (I : E → Prop) (hq : Quiet m.ec I) (g h : ℝ)
    (hg : ∀ t x, excess o.c o.f (((co.cast ℝ).tableau s).output m.rhs t h x 0) = g * excess o.c o.f x)
    (t t₀ : ℝ) (x x₀ : ℝ × ℝ) (hold : Option ℝ) (e : E) (hI : I e) (n : Nat) :
    ∃ st, (⟨t, x, hold, Output.mkEmpty, h, e, []⟩ : FixedSt ℝ (ℝ × ℝ) E).calls m
        (.setInitialState t₀ x₀ :: List.replicate n .doStep) = .ok st ∧
      st.t = t₀ + n * h ∧ excess o.c o.f st.x = g ^ n * excess o.c o.f x₀ := by
  let T := (co.cast ℝ).tableau s
  let xs : Nat → ℝ × ℝ := fun k => Nat.rec x₀ (fun k x => T.output m.rhs (t₀ + k * h) h x 0) k
  obtain ⟨st, a1, a2, a3, a4⟩ := C28_iterate T m hs rfl (by rw [hm]; exact (cast_pack hpk).symm) I hq t t₀ h x x₀
    hold e hI xs rfl (fun _ => rfl) n
  refine ⟨st, a1, a2, ?_⟩
  rw [a3]
  clear a1 a2 a3 a4
  induction n with
  | zero => simp [xs]
  | succ n ih =>
    have : xs (n + 1) = T.output m.rhs (t₀ + n * h) h (xs n) 0 := rfl
    rw [this, hg, ih, pow_succ]; ring

/-- C103. The explicit Euler solver multiplies the energy of the oscillator (relative to rest) by `1 + c h²` at
every step. -/
theorem C103_euler {E : Type} (o : Oscillator ℝ) (m : Method ℝ (ℝ × ℝ) E) (hm : m.co = euler.cast ℝ)
    (ho : OscMethod o m) (I : E → Prop) (hq : Quiet m.ec I) (t t₀ h : ℝ) (x x₀ : ℝ × ℝ) (hold : Option ℝ) (e : E)
    (hI : I e) (n : Nat) :
    ∃ st, (⟨t, x, hold, Output.mkEmpty, h, e, []⟩ : FixedSt ℝ (ℝ × ℝ) E).calls m
        (.setInitialState t₀ x₀ :: List.replicate n .doStep) = .ok st ∧
      st.t = t₀ + n * h ∧ excess o.c o.f st.x = (1 + o.c * h ^ 2) ^ n * excess o.c o.f x₀ := by
  refine osc_run (s := 1) (by decide)
    (coefficients_ext (by decide +kernel) (by decide +kernel) (by decide +kernel) rfl) hm I hq _ h ?_ t t₀ x x₀ hold e
    hI n
  intro t x
  rw [euler_output, ho.rhs_eq]
  simp only [excess, Prod.fst_add, Prod.snd_add, Prod.smul_fst, Prod.smul_snd, smul_eq_mul]
  ring

/-- C103. The classical Runge-Kutta solver multiplies the energy of the oscillator (relative to rest) by
`1 - z³/72 + z⁴/576`, `z = c h²`, at every step. -/
theorem C103_rk4 {E : Type} (o : Oscillator ℝ) (m : Method ℝ (ℝ × ℝ) E) (hm : m.co = rk4.cast ℝ)
    (ho : OscMethod o m) (I : E → Prop) (hq : Quiet m.ec I) (t t₀ h : ℝ) (x x₀ : ℝ × ℝ) (hold : Option ℝ) (e : E)
    (hI : I e) (n : Nat) :
    ∃ st, (⟨t, x, hold, Output.mkEmpty, h, e, []⟩ : FixedSt ℝ (ℝ × ℝ) E).calls m
        (.setInitialState t₀ x₀ :: List.replicate n .doStep) = .ok st ∧
      st.t = t₀ + n * h ∧
      excess o.c o.f st.x = (1 - (o.c * h ^ 2) ^ 3 / 72 + (o.c * h ^ 2) ^ 4 / 576) ^ n * excess o.c o.f x₀ := by
  refine osc_run (s := 4) (by decide)
    (coefficients_ext (by decide +kernel) (by decide +kernel) (by decide +kernel) rfl) hm I hq _ h ?_ t t₀ x x₀ hold e
    hI n
  intro t x
  obtain ⟨k1, k2, k3, k4, h1, h2, h3, h4, h5⟩ := rk4_output m.rhs t h x
  rw [h5]
  rw [ho.rhs_eq] at h1 h2 h3 h4
  subst h1
  subst h2
  subst h3
  subst h4
  simp only [excess, Prod.fst_add, Prod.snd_add, Prod.smul_fst, Prod.smul_snd, smul_eq_mul]
  ring

/-- C103. With the classical Runge-Kutta solver the oscillations stay bounded exactly if `c h² ≤ 8`. -/
theorem C103_rk4_stable {E : Type} (o : Oscillator ℝ) (hc : 0 < o.c) (m : Method ℝ (ℝ × ℝ) E)
    (hm : m.co = rk4.cast ℝ) (ho : OscMethod o m) (I : E → Prop) (hq : Quiet m.ec I) (t t₀ h : ℝ) (x x₀ : ℝ × ℝ)
    (hh : h ≠ 0) (hold : Option ℝ) (e : E) (hI : I e) (hx : x₀ ≠ (o.f / o.c, 0)) :
    (∃ M, ∀ n, ∃ st, (⟨t, x, hold, Output.mkEmpty, h, e, []⟩ : FixedSt ℝ (ℝ × ℝ) E).calls m
        (.setInitialState t₀ x₀ :: List.replicate n .doStep) = .ok st ∧ excess o.c o.f st.x ≤ M) ↔
      o.c * h ^ 2 ≤ 8 := by
  have key := C103_rk4 o m hm ho I hq t t₀ h x x₀ hold e hI
  have hz : 0 < o.c * h ^ 2 := mul_pos hc (by positivity)
  obtain ⟨z, hzd⟩ : ∃ z, z = o.c * h ^ 2 := ⟨_, rfl⟩
  rw [← hzd] at key hz ⊢
  have hex : 0 < excess o.c o.f x₀ := by
    unfold excess
    have h1 : 0 ≤ o.c * x₀.2 ^ 2 := by positivity
    have h2 : 0 ≤ (o.c * x₀.1 - o.f) ^ 2 := sq_nonneg _
    refine lt_of_le_of_ne (by linarith) (fun h0 => hx ?_)
    have h3 : o.c * x₀.2 ^ 2 = 0 := by linarith
    have h4 : (o.c * x₀.1 - o.f) ^ 2 = 0 := by linarith
    have h5 : x₀.2 = 0 := by simpa [hc.ne'] using h3
    have h6 : o.c * x₀.1 = o.f := by have := pow_eq_zero_iff (two_ne_zero) |>.1 h4; linarith
    exact Prod.ext (by rw [← h6]; field_simp) h5
  have hg0 : 0 ≤ 1 - z ^ 3 / 72 + z ^ 4 / 576 := by
    nlinarith [sq_nonneg (z ^ 2 - 4 * z), sq_nonneg (z ^ 2 - 8 * z), sq_nonneg (z - 6), sq_nonneg (z ^ 2 - 6 * z),
      mul_nonneg hz.le (sq_nonneg (z - 6)), mul_nonneg hz.le hz.le]
  constructor
  · rintro ⟨M, hM⟩
    by_contra hlt
    push Not at hlt
    have hg1 : 1 < 1 - z ^ 3 / 72 + z ^ 4 / 576 := by
      have : z ^ 4 / 576 - z ^ 3 / 72 = z ^ 3 * (z - 8) / 576 := by ring
      have : 0 < z ^ 3 * (z - 8) / 576 := by
        have : 0 < z - 8 := by linarith
        positivity
      linarith
    obtain ⟨n, hn⟩ := (tendsto_pow_atTop_atTop_of_one_lt hg1).eventually_gt_atTop (M / excess o.c o.f x₀) |>.exists
    obtain ⟨st, s1, s2⟩ := hM n
    obtain ⟨st', s3, _, s4⟩ := key n
    rw [s1] at s3
    cases s3
    rw [s4] at s2
    rw [div_lt_iff₀ hex] at hn
    linarith
  · intro hle
    refine ⟨excess o.c o.f x₀, fun n => ?_⟩
    obtain ⟨st, s1, _, s2⟩ := key n
    refine ⟨st, s1, ?_⟩
    rw [s2]
    have hg1 : 1 - z ^ 3 / 72 + z ^ 4 / 576 ≤ 1 := by
      have : z ^ 4 / 576 - z ^ 3 / 72 = -(z ^ 3 * (8 - z) / 576) := by ring
      have : 0 ≤ z ^ 3 * (8 - z) / 576 := by
        have : 0 ≤ 8 - z := by linarith
        positivity
      linarith
    exact mul_le_of_le_one_left hex.le (pow_le_one₀ hg0 hg1)

/-- The oscillator as a right-hand side of the implicit solver -/
def Oscillator.toRhs {K : Type} [Field K] (o : Oscillator K) : Implicit.Rhs K := ⟨1, 0, fun _ x => o.rhs [] x⟩

/-- C103. An implicit Euler step that leaves no residual changes the energy (relative to rest) by the factor
`(1 + (1-α)² c h²) / (1 + α² c h²)`: with α = 1 the oscillator loses energy at any step size, with α = 1/2 energy
is conserved exactly. -/
theorem C103_implicit {K : Type} [Field K] [LinearOrder K] [IsStrictOrderedRing K] (o : Oscillator K)
    {alpha h t0 : K} {u v : K} {X1 : List K} (hs : Implicit.Solves o.toRhs alpha h t0 0 [u, v] X1) :
    ∃ u' v', X1 = [u', v'] ∧ (1 + alpha ^ 2 * (o.c * h ^ 2)) * excess o.c o.f (u', v') =
      (1 + (1 - alpha) ^ 2 * (o.c * h ^ 2)) * excess o.c o.f (u, v) := by
  have hl : X1.length = 2 := hs.1
  match X1, hl with
  | [u', v'], _ =>
    refine ⟨u', v', rfl, ?_⟩
    have hk : Implicit.Kinematic o.toRhs := by
      intro t x f hf i hi
      have hi : i = 0 := by
        have : i < 1 := hi
        omega
      subst hi
      have hf : o.rhs [] x = .ok f := hf
      show f.getD 0 0 = x.getD 1 0
      match x with
      | [] => cases hf
      | [_] => cases hf
      | a :: b :: l =>
        have : f = [b, o.f - o.c * a] := by
          have e : o.rhs [] (a :: b :: l) = .ok [b, o.f - o.c * a] := rfl
          rw [e] at hf
          cases hf
          rfl
        rw [this]; rfl
    obtain ⟨f0, f1, h0, h1, h2⟩ := Implicit.C35_all hk hs
    have h0 : o.rhs [] [u, v] = .ok f0 := h0
    have h1 : o.rhs [] [u', v'] = .ok f1 := h1
    rw [osc_rhs] at h0 h1
    cases h0
    cases h1
    have e1 : u' = u + h * ((1 - alpha) * v + alpha * v') := h2 0 (show 0 < 2 by decide)
    have e2 : v' = v + h * ((1 - alpha) * (o.f - o.c * u) + alpha * (o.f - o.c * u')) := h2 1 (show 1 < 2 by decide)
    unfold excess
    simp only
    have a1 : (o.c * u' - o.f) - alpha * h * o.c * v' = (o.c * u - o.f) + (1 - alpha) * h * o.c * v := by
      rw [e1]; ring
    have a2 : v' + alpha * h * (o.c * u' - o.f) = v - (1 - alpha) * h * (o.c * u - o.f) := by
      linear_combination e2
    have b1 := congrArg (· ^ 2) a1
    have b2 := congrArg (· ^ 2) a2
    linear_combination b1 + o.c * b2

/-- Oscillator with unit stiffness and no force, implicit step of size one -/
example : Implicit.Solves (⟨1, 0⟩ : Oscillator ℚ).toRhs 1 1 0 0 [1, 0] [1/2, -1/2] :=
  ⟨rfl, [0, -1], [-1/2, -1/2], by decide +kernel, by decide +kernel, by decide +kernel, by
    intro i h1 h2
    have h1 : 1 ≤ i := h1
    have h2 : i < 2 := h2
    have : i = 1 := by omega
    subst this
    decide +kernel⟩

/-- The hypotheses of the theorems about explicit solvers are met. -/
example : OscMethod ⟨1000, 100⟩ (⟨rk4.cast ℝ, fun _ x => (x.2, 100 - 1000 * x.1), none⟩ : Method ℝ (ℝ × ℝ) Unit) ∧
    Quiet (none : Option (EventCtl ℝ (ℝ × ℝ) Unit)) (fun _ => True) :=
  ⟨fun _ u v => osc_rhs _ _ u v, fun c hc => by simp at hc, fun c hc => by simp at hc, fun c hc => by simp at hc⟩

/-! ## C104 -/

/-- What `rhs` of StiffOde1D computes. -/
theorem stiff_rhs (s : Stiff) (dst : List ℝ) (t u : ℝ) : s.rhs dst t [u] = .ok [-s.a * (u - Real.cos t)] := by
  have hr : ∃ a, resized 1 dst = [a] := by
    have : (resized 1 dst).length = 1 := by simp [resized]
    match h : resized 1 dst, this with
    | [a], _ => exact ⟨a, rfl⟩
  obtain ⟨a, hr⟩ := hr
  unfold Stiff.rhs
  simp only [hr]
  rfl

/-- C104. Every solution of the equation defined by the code is `(a² cos t + a sin t)/(1+a²)` plus a term that
decays as `exp (-a t)`. -/
theorem C104_solution (s : Stiff) (a b : ℝ) (u : ℝ → ℝ)
    (hsol : ∀ t ∈ Set.Icc a b, ∃ du, s.rhs [] t [u t] = .ok [du] ∧ HasDerivAt u du t) :
    ∀ t ∈ Set.Icc a b, u t - (s.a ^ 2 * Real.cos t + s.a * Real.sin t) / (1 + s.a ^ 2) =
      Real.exp (-s.a * (t - a)) * (u a - (s.a ^ 2 * Real.cos a + s.a * Real.sin a) / (1 + s.a ^ 2)) := by
  have hn : (1 + s.a ^ 2 : ℝ) ≠ 0 := by positivity
  have hder : ∀ t ∈ Set.Icc a b, HasDerivAt (fun t => Real.exp (s.a * (t - a)) *
      (u t - (s.a ^ 2 * Real.cos t + s.a * Real.sin t) / (1 + s.a ^ 2))) 0 t := by
    intro t ht
    obtain ⟨du, h1, h2⟩ := hsol t ht
    rw [stiff_rhs] at h1
    simp only [Except.ok.injEq, List.cons.injEq, and_true] at h1
    subst h1
    have e1 : HasDerivAt (fun t => Real.exp (s.a * (t - a))) (Real.exp (s.a * (t - a)) * s.a) t := by
      have := (((hasDerivAt_id t).sub_const a).const_mul s.a).exp
      simpa using this
    have e2 := h2.sub ((((Real.hasDerivAt_cos t).const_mul (s.a ^ 2)).add
      ((Real.hasDerivAt_sin t).const_mul s.a)).div_const (1 + s.a ^ 2))
    refine (e1.mul e2).congr_deriv ?_
    simp only [Pi.sub_apply, Pi.add_apply]
    field_simp
    ring
  intro t ht
  have hc := constant_of_has_deriv_right_zero
    (fun s hs => (hder s hs).continuousAt.continuousWithinAt)
    (fun s hs => (hder s ⟨hs.1, hs.2.le⟩).hasDerivWithinAt) t ht
  simp only [sub_self, mul_zero, Real.exp_zero, one_mul] at hc
  rw [← hc, ← mul_assoc, ← Real.exp_add]
  have : -s.a * (t - a) + s.a * (t - a) = 0 := by ring
  rw [this, Real.exp_zero, one_mul]

/-- The equation as a right-hand side of the implicit solver -/
noncomputable def Stiff.toRhs (s : Stiff) : Implicit.Rhs ℝ := ⟨0, 1, fun t x => s.rhs [] t x⟩

/-- C104. Two runs of the implicit Euler solver approach each other by the factor `1 + a h` at every step, whatever
the step size is. -/
theorem C104_implicit (s : Stiff) (h : ℝ) (t : Nat → ℝ) (x y : Nat → ℝ) (hne : 1 + s.a * h ≠ 0)
    (hx : ∀ n, Implicit.Solves s.toRhs 1 h (t n) 0 [x n] [x (n + 1)])
    (hy : ∀ n, Implicit.Solves s.toRhs 1 h (t n) 0 [y n] [y (n + 1)]) (n : Nat) :
    x n - y n = (x 0 - y 0) / (1 + s.a * h) ^ n := by
  have hk : Implicit.Kinematic s.toRhs := fun _ _ _ _ i hi => absurd hi (Nat.not_lt_zero i)
  have step : ∀ (z : Nat → ℝ) (n), Implicit.Solves s.toRhs 1 h (t n) 0 [z n] [z (n + 1)] →
      z (n + 1) = z n + h * (-s.a * (z (n + 1) - Real.cos (t n + h))) := by
    intro z n hz
    obtain ⟨f0, f1, _, h1, h2⟩ := Implicit.C35_all hk hz
    have h1 : s.rhs [] (t n + h) [z (n + 1)] = .ok f1 := h1
    rw [stiff_rhs] at h1
    cases h1
    have := h2 0 (show 0 < 1 by decide)
    simpa using this
  induction n with
  | zero => simp
  | succ n ih =>
    have e1 := step x n (hx n)
    have e2 := step y n (hy n)
    rw [pow_succ, ← div_div, ← ih, eq_div_iff hne]
    linear_combination e1 - e2

/-- C104. Two runs of the explicit Euler solver with the same step size move apart or together by the factor
`1 - a h` at every step: the error grows if `a h > 2`. -/
theorem C104_explicit {E : Type} (s : Stiff) (m : Method ℝ ℝ E) (hm : m.co = euler.cast ℝ)
    (hs : ∀ t u, s.rhs [] t [u] = .ok [m.rhs t u]) (I : E → Prop) (hq : Quiet m.ec I) (t t₀ h x x₀ y₀ : ℝ)
    (hold : Option ℝ) (e : E) (hI : I e) (n : Nat) :
    ∃ p q, (⟨t, x, hold, Output.mkEmpty, h, e, []⟩ : FixedSt ℝ ℝ E).calls m
        (.setInitialState t₀ x₀ :: List.replicate n .doStep) = .ok p ∧
      (⟨t, x, hold, Output.mkEmpty, h, e, []⟩ : FixedSt ℝ ℝ E).calls m
        (.setInitialState t₀ y₀ :: List.replicate n .doStep) = .ok q ∧
      p.x - q.x = (1 - s.a * h) ^ n * (x₀ - y₀) := by
  have hrhs : ∀ t u, m.rhs t u = -s.a * (u - Real.cos t) := by
    intro t u
    have := hs t u
    rw [stiff_rhs] at this
    simp only [Except.ok.injEq, List.cons.injEq, and_true] at this
    exact this.symm
  let T := (euler.cast ℝ).tableau 1
  let xs : ℝ → Nat → ℝ := fun x₀ k => Nat.rec x₀ (fun k x => T.output m.rhs (t₀ + k * h) h x 0) k
  have hpk : (euler.tableau 1).pack 1 (-1) = euler :=
    coefficients_ext (by decide +kernel) (by decide +kernel) (by decide +kernel) rfl
  obtain ⟨p, a1, _, a3, _⟩ := C28_iterate T m (by decide) rfl (by rw [hm]; exact (cast_pack hpk).symm) I hq t t₀ h x x₀
    hold e hI (xs x₀) rfl (fun _ => rfl) n
  obtain ⟨q, b1, _, b3, _⟩ := C28_iterate T m (by decide) rfl (by rw [hm]; exact (cast_pack hpk).symm) I hq t t₀ h x y₀
    hold e hI (xs y₀) rfl (fun _ => rfl) n
  refine ⟨p, q, a1, b1, ?_⟩
  rw [a3, b3]
  have key : ∀ n, xs x₀ n - xs y₀ n = (1 - s.a * h) ^ n * (x₀ - y₀) := by
    intro n
    induction n with
    | zero => simp [xs]
    | succ n ih =>
      have e1 : xs x₀ (n + 1) = T.output m.rhs (t₀ + n * h) h (xs x₀ n) 0 := rfl
      have e2 : xs y₀ (n + 1) = T.output m.rhs (t₀ + n * h) h (xs y₀ n) 0 := rfl
      rw [e1, e2, euler_output, euler_output, hrhs, hrhs, pow_succ]
      simp only [smul_eq_mul]
      linear_combination (1 - s.a * h) * ih
  exact key n

/-- The coefficient given as a parameter is stored as given -/
theorem C104_parameter (s : Stiff) (a : ℝ) : (s.setParameters (some a)).a = a := rfl

/-- C104 is false for the constructor, which takes an unsigned integer: the equation made for `a = 1/2` is
`y' = 0`. -/
theorem C104_constructor_false : ∃ s, Stiff.new (1 / 2) = .ok s ∧ s.a = 0 ∧ ∀ t u, s.rhs [] t [u] = .ok [0] := by
  have h : Stiff.new (1 / 2) = .ok ⟨0⟩ := by
    unfold Stiff.new
    rw [if_pos (by norm_num)]
    have : ⌊max (1 / 2 : ℝ) 0⌋₊ = 0 := by rw [Nat.floor_eq_zero]; norm_num
    rw [this]; simp
  exact ⟨_, h, rfl, fun t u => by rw [stiff_rhs]; simp⟩

/-- Whole numbers are stored as given. -/
theorem C104_constructor_partial (n : Nat) (hn : n < 4294967296) : Stiff.new n = .ok ⟨n⟩ := by
  unfold Stiff.new
  have h1 : (n : ℝ) < 4294967296 := by exact_mod_cast hn
  have h2 : (-1 : ℝ) < n := by have : (0 : ℝ) ≤ n := Nat.cast_nonneg n; linarith
  rw [if_pos ⟨h2, h1⟩, max_eq_left (Nat.cast_nonneg n), Nat.floor_natCast]

/-- Solutions exist: the forced response itself. -/
example : ∀ t ∈ Set.Icc (0 : ℝ) 1, ∃ du, (⟨1⟩ : Stiff).rhs [] t [(Real.cos t + Real.sin t) / 2] = .ok [du] ∧
    HasDerivAt (fun t => (Real.cos t + Real.sin t) / 2) du t := by
  intro t _
  refine ⟨_, stiff_rhs _ _ _ _, ?_⟩
  refine (((Real.hasDerivAt_cos t).add (Real.hasDerivAt_sin t)).div_const 2).congr_deriv ?_
  ring

/-- An implicit step of size one with `a = 1` from rest -/
example : Implicit.Solves (⟨1⟩ : Stiff).toRhs 1 1 0 0 [0] [Real.cos 1 / 2] := by
  refine ⟨rfl, [-1 * (0 - Real.cos 0)], [-1 * (Real.cos 1 / 2 - Real.cos (0 + 1))], stiff_rhs _ _ _ _,
    stiff_rhs _ _ _ _, fun i hi => absurd hi (Nat.not_lt_zero i), fun i _ hi => ?_⟩
  have hi : i < 1 := hi
  have : i = 0 := by omega
  subst this
  simp only [List.getD_cons_zero, zero_add]
  rw [abs_nonpos_iff]
  ring

end Verif.TestModels
