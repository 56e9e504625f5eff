import Verif.Driver.RichardsonProps
import Mathlib.Analysis.Asymptotics.Lemmas
import Mathlib.Analysis.SpecialFunctions.Exp

/-! # C48 for small steps -/

namespace Verif.Driver

open Asymptotics Filter Topology

variable {V : Type} [NormedAddCommGroup V] [NormedSpace ℝ V]

/-- C48. Let one step of size `k` from `(s, y)` near `(t, x)` err by `k^(p+1) c(s, y)` up to a smaller remainder,
`c` continuous, and let the exact flow `φ` carry differences along unchanged up to a small relative change. Then
the error reported for a step of size `h` from `(t, x)` is that of the whole step, exact result minus the one
computed, up to `o(h^(p+1))`. -/
theorem C48_leading (p : Nat) (hp1 : 1 ≤ p) (ψ φ : ℝ → ℝ → V → V) (c : ℝ × V → V) (t : ℝ) (x : V)
    (hc : ContinuousAt c (t, x))
    (hψ : (fun q : ℝ × ℝ × V => ψ q.2.1 q.1 q.2.2 - φ q.2.1 q.1 q.2.2 - q.1 ^ (p + 1) • c q.2)
      =o[𝓝 (0, t, x)] fun q => q.1 ^ (p + 1))
    (hcont : Tendsto (fun k => φ t k x) (𝓝 0) (𝓝 x))
    (hflow : ∀ᶠ h in 𝓝 (0 : ℝ), φ (t + 1 / 2 * h) (1 / 2 * h) (φ t (1 / 2 * h) x) = φ t h x)
    (hcarry : (fun q : (ℝ × ℝ) × V × V => φ q.1.2 q.1.1 q.2.1 - φ q.1.2 q.1.1 q.2.2 - (q.2.1 - q.2.2))
      =o[𝓝 ((0, t), x, x)] fun q => q.2.1 - q.2.2) :
    (fun h => ((2 : ℝ) ^ p / (2 ^ p - 1)) • (halves ψ t h x - ψ t h x) - (φ t h x - ψ t h x))
      =o[𝓝 0] fun h => h ^ (p + 1) := by
  -- errors of the whole step and of the half steps
  have hid : Tendsto (fun h : ℝ => h) (𝓝 0) (𝓝 0) := tendsto_id
  have hhalf : Tendsto (fun h : ℝ => 1 / 2 * h) (𝓝 0) (𝓝 0) := by
    simpa using (hid.const_mul (1 / 2 : ℝ))
  have hpow : (fun h : ℝ => (1 / 2 * h) ^ (p + 1)) =O[𝓝 0] fun h => h ^ (p + 1) := by
    refine IsBigO.of_bound 1 (Eventually.of_forall fun h => ?_)
    rw [mul_pow, norm_mul, one_mul]
    refine mul_le_of_le_one_left (norm_nonneg _) ?_
    rw [norm_pow]
    exact pow_le_one₀ (norm_nonneg _) (by norm_num)
  have E0 : (fun h => ψ t h x - φ t h x - h ^ (p + 1) • c (t, x)) =o[𝓝 0] fun h : ℝ => h ^ (p + 1) :=
    hψ.comp_tendsto (hid.prodMk_nhds tendsto_const_nhds)
  have E1 : (fun h => ψ t (1 / 2 * h) x - φ t (1 / 2 * h) x - (1 / 2 * h) ^ (p + 1) • c (t, x))
      =o[𝓝 0] fun h : ℝ => h ^ (p + 1) :=
    (hψ.comp_tendsto (hhalf.prodMk_nhds (tendsto_const_nhds (x := (t, x))))).trans_isBigO hpow
  -- the first half step tends to x
  have hpow0 : Tendsto (fun h : ℝ => h ^ (p + 1)) (𝓝 0) (𝓝 0) := by
    simpa using hid.pow (p + 1)
  have D1 : (fun h => ψ t (1 / 2 * h) x - φ t (1 / 2 * h) x) =O[𝓝 0] fun h : ℝ => h ^ (p + 1) := by
    have h1 : (fun h : ℝ => (1 / 2 * h) ^ (p + 1) • c (t, x)) =O[𝓝 0] fun h => h ^ (p + 1) := by
      have := hpow.smul (isBigO_refl (fun _ : ℝ => c (t, x)) (𝓝 0))
      refine this.trans ?_
      refine IsBigO.of_bound ‖c (t, x)‖ (Eventually.of_forall fun h => ?_)
      rw [norm_smul, mul_comm]
    exact (E1.isBigO.add h1).congr_left (fun h => by module)
  have hy : Tendsto (fun h => ψ t (1 / 2 * h) x) (𝓝 0) (𝓝 x) := by
    have h1 := (D1.trans_tendsto hpow0).add (hcont.comp hhalf)
    simpa [Function.comp_def] using h1
  have hz : Tendsto (fun h => φ t (1 / 2 * h) x) (𝓝 0) (𝓝 x) := hcont.comp hhalf
  have ht : Tendsto (fun h : ℝ => t + 1 / 2 * h) (𝓝 0) (𝓝 t) := by
    simpa using hhalf.const_add t
  -- the second half step
  have E2 : (fun h => halves ψ t h x - φ (t + 1 / 2 * h) (1 / 2 * h) (ψ t (1 / 2 * h) x)
      - (1 / 2 * h) ^ (p + 1) • c (t + 1 / 2 * h, ψ t (1 / 2 * h) x)) =o[𝓝 0] fun h : ℝ => h ^ (p + 1) :=
    (hψ.comp_tendsto (hhalf.prodMk_nhds (ht.prodMk_nhds hy))).trans_isBigO hpow
  have E3 : (fun h : ℝ => (1 / 2 * h) ^ (p + 1) • (c (t + 1 / 2 * h, ψ t (1 / 2 * h) x) - c (t, x)))
      =o[𝓝 0] fun h : ℝ => h ^ (p + 1) := by
    have h1 : Tendsto (fun h => c (t + 1 / 2 * h, ψ t (1 / 2 * h) x) - c (t, x)) (𝓝 0) (𝓝 0) := by
      have := (hc.tendsto.comp (ht.prodMk_nhds hy)).sub_const (c (t, x))
      simpa [Function.comp_def] using this
    have h2 := hpow.smul_isLittleO ((isLittleO_one_iff ℝ).2 h1)
    simpa using h2
  have E4 : (fun h => φ (t + 1 / 2 * h) (1 / 2 * h) (ψ t (1 / 2 * h) x)
      - φ (t + 1 / 2 * h) (1 / 2 * h) (φ t (1 / 2 * h) x) - (ψ t (1 / 2 * h) x - φ t (1 / 2 * h) x))
      =o[𝓝 0] fun h : ℝ => h ^ (p + 1) :=
    (hcarry.comp_tendsto ((hhalf.prodMk_nhds ht).prodMk_nhds (hy.prodMk_nhds hz))).trans_isBigO D1
  have E5 : (fun h => φ (t + 1 / 2 * h) (1 / 2 * h) (φ t (1 / 2 * h) x) - φ t h x)
      =o[𝓝 0] fun h : ℝ => h ^ (p + 1) :=
    ((isLittleO_zero _ _).congr' (hflow.mono fun h hh => by simp only [hh, sub_self]) EventuallyEq.rfl)
  have h2p : (2 : ℝ) ^ p - 1 ≠ 0 := (sub_pos.2 (one_lt_pow₀ one_lt_two (by omega))).ne'
  have main := (((((E2.add E3).add E4).add E5).add E1).const_smul_left ((2 : ℝ) ^ p / (2 ^ p - 1))).sub
    (E0.const_smul_left (((2 : ℝ) ^ p / (2 ^ p - 1)) - 1))
  refine main.congr_left (fun h => ?_)
  have e3 : (1 / 2 : ℝ) ^ (p + 1) = 1 / (2 * 2 ^ p) := by rw [div_pow, one_pow, pow_succ, mul_comm]
  have e4 : ((2 : ℝ) ^ p / (2 ^ p - 1)) * (2 * (1 / 2 * h) ^ (p + 1))
      = (((2 : ℝ) ^ p / (2 ^ p - 1)) - 1) * h ^ (p + 1) := by
    rw [mul_pow, e3]
    field_simp
    ring
  have e5 : (((2 : ℝ) ^ p / (2 ^ p - 1)) * (2 * (1 / 2 * h) ^ (p + 1))) • c (t, x)
      = ((((2 : ℝ) ^ p / (2 ^ p - 1)) - 1) * h ^ (p + 1)) • c (t, x) := by rw [e4]
  simp only [Pi.smul_apply]
  generalize (2 : ℝ) ^ p / (2 ^ p - 1) = F at e5 ⊢
  generalize (1 / 2 * h) ^ (p + 1) = q at e5 ⊢
  linear_combination (norm := module) -e5

/-- Hypotheses of C48_leading are met by Euler steps on `x' = a x`. -/
example (a t x : ℝ) : ∃ c : ℝ × ℝ → ℝ, ContinuousAt c (t, x) ∧ c (t, x) = -(a ^ 2 / 2) * x ∧
    (fun q : ℝ × ℝ × ℝ => (q.2.2 + q.1 * (a * q.2.2)) - Real.exp (a * q.1) * q.2.2 - q.1 ^ (1 + 1) • c q.2)
      =o[𝓝 (0, t, x)] (fun q => q.1 ^ (1 + 1)) ∧
    Tendsto (fun k => Real.exp (a * k) * x) (𝓝 0) (𝓝 x) ∧
    (∀ h : ℝ, Real.exp (a * (1 / 2 * h)) * (Real.exp (a * (1 / 2 * h)) * x) = Real.exp (a * h) * x) ∧
    (fun q : (ℝ × ℝ) × ℝ × ℝ => Real.exp (a * q.1.1) * q.2.1 - Real.exp (a * q.1.1) * q.2.2 - (q.2.1 - q.2.2))
      =o[𝓝 ((0, t), x, x)] fun q => q.2.1 - q.2.2 := by
  have hexp : Tendsto (fun k : ℝ => Real.exp (a * k)) (𝓝 0) (𝓝 1) := by
    have : ContinuousAt (fun k : ℝ => Real.exp (a * k)) 0 := by fun_prop
    simpa [ContinuousAt] using this
  refine ⟨fun q => -(a ^ 2 / 2) * q.2, by fun_prop, rfl, ?_, ?_, ?_, ?_⟩
  · have h1 := Real.exp_sub_sum_range_succ_isLittleO_pow 2
    have h2 : Tendsto (fun q : ℝ × ℝ × ℝ => a * q.1) (𝓝 (0, t, x)) (𝓝 0) := by
      have : ContinuousAt (fun q : ℝ × ℝ × ℝ => a * q.1) (0, t, x) := by fun_prop
      simpa [ContinuousAt] using this
    have h3 := h1.comp_tendsto h2
    have h4 : (fun q : ℝ × ℝ × ℝ => (a * q.1) ^ 2) =O[𝓝 (0, t, x)] fun q => q.1 ^ 2 := by
      refine IsBigO.of_bound (a ^ 2) (Eventually.of_forall fun q => ?_)
      rw [mul_pow, norm_mul, Real.norm_of_nonneg (sq_nonneg a)]
    have h5 : (fun q : ℝ × ℝ × ℝ => -q.2.2) =O[𝓝 (0, t, x)] fun _ => (1 : ℝ) := by
      have : ContinuousAt (fun q : ℝ × ℝ × ℝ => -q.2.2) (0, t, x) := by fun_prop
      exact this.norm.isBoundedUnder_le.isBigO_one ℝ
    have h6 := (h3.trans_isBigO h4).mul_isBigO h5
    refine (h6.congr_right (fun q => by ring)).congr_left (fun q => ?_)
    simp [Finset.sum_range_succ]
    ring
  · simpa using hexp.mul_const x
  · intro h
    rw [← mul_assoc, ← Real.exp_add]
    congr 2
    ring
  · have h1 : Tendsto (fun q : (ℝ × ℝ) × ℝ × ℝ => Real.exp (a * q.1.1) - 1) (𝓝 ((0, t), x, x)) (𝓝 0) := by
      have : ContinuousAt (fun q : (ℝ × ℝ) × ℝ × ℝ => Real.exp (a * q.1.1) - 1) ((0, t), x, x) := by fun_prop
      simpa [ContinuousAt] using this
    have h2 := ((isLittleO_one_iff ℝ).2 h1).mul_isBigO
      (isBigO_refl (fun q : (ℝ × ℝ) × ℝ × ℝ => q.2.1 - q.2.2) (𝓝 ((0, t), x, x)))
    refine (h2.congr_left (fun q => by ring)).congr_right (fun q => by ring)

end Verif.Driver
