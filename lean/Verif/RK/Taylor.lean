import Verif.RK.Series

/-! # Taylor expansion of smooth right-hand sides and the order theorem -/

namespace Verif.RK

open Asymptotics Filter Topology
open scoped BigOperators Nat

variable {E : Type} [NormedAddCommGroup E] [NormedSpace ℝ E]

/-- Taylor coefficients of `f` at `x₀`. -/
noncomputable def taylorSeries (f : E → E) (x₀ : E) : FormalMultilinearSeries ℝ E E :=
  fun m => (m ! : ℝ)⁻¹ • iteratedFDeriv ℝ m f x₀

theorem taylorAt_of_contDiffAt [CompleteSpace E] {f : E → E} {x₀ : E} {q : Nat}
    (hf : ContDiffAt ℝ q f x₀) (hq : 1 ≤ q) : TaylorAt f (taylorSeries f x₀) x₀ q := by
  obtain ⟨n, rfl⟩ : ∃ n, q = n + 1 := ⟨q - 1, by omega⟩
  have hev := hf.eventually (by simp)
  have hcont : ContinuousAt (iteratedFDeriv ℝ (n + 1) f) x₀ :=
    (hf.iteratedFDeriv_right (i := n + 1) (m := 0) (by simp)).continuousAt
  set M := ‖iteratedFDeriv ℝ (n + 1) f x₀‖ + 1 with hM
  have hbd : ∀ᶠ x in 𝓝 x₀, ‖iteratedFDeriv ℝ (n + 1) f x‖ ≤ M := by
    have := hcont.norm.eventually_lt_const (show ‖iteratedFDeriv ℝ (n + 1) f x₀‖ < M by linarith)
    filter_upwards [this] with x hx using hx.le
  obtain ⟨ε, hε, hball⟩ := Metric.eventually_nhds_iff_ball.1 (hev.and hbd)
  unfold TaylorAt
  refine IsBigO.of_bound (((n ! : ℝ))⁻¹ * M) ?_
  filter_upwards [Metric.ball_mem_nhds (0 : E) hε] with z hz
  have hz' : ‖z‖ < ε := by simpa using hz
  have hin : ∀ t ∈ Set.Icc (0 : ℝ) 1, x₀ + t • z ∈ Metric.ball x₀ ε := by
    intro t ht
    rw [Metric.mem_ball, dist_eq_norm, add_sub_cancel_left, norm_smul, Real.norm_eq_abs,
      abs_of_nonneg ht.1]
    exact lt_of_le_of_lt (mul_le_of_le_one_left (norm_nonneg _) ht.2) hz'
  have hT := map_add_eq_sum_add_integral_iteratedFDeriv (n := n) (f := f) (x := x₀) (y := z)
    (fun t ht => by simpa using (hball _ (hin t ht)).1)
  have hsum : (taylorSeries f x₀).partialSum (n + 1) z
      = ∑ k ∈ Finset.range (n + 1), (k ! : ℝ)⁻¹ • (iteratedFDeriv ℝ k f x₀ (fun _ ↦ z)) := rfl
  rw [hT, hsum, add_sub_cancel_left, norm_smul, norm_inv, Real.norm_natCast, norm_pow, norm_norm,
    mul_assoc]
  refine mul_le_mul_of_nonneg_left ?_ (by positivity)
  have hint : ∀ t ∈ Set.uIoc (0 : ℝ) 1,
      ‖(1 - t) ^ n • iteratedFDeriv ℝ (n + 1) f (x₀ + t • z) (fun _ ↦ z)‖ ≤ M * ‖z‖ ^ (n + 1) := by
    intro t ht
    rw [Set.uIoc_of_le zero_le_one] at ht
    have ht' : t ∈ Set.Icc (0 : ℝ) 1 := ⟨ht.1.le, ht.2⟩
    have h1 := (hball _ (hin t ht')).2
    rw [norm_smul, norm_pow, Real.norm_eq_abs, abs_of_nonneg (by linarith [ht.2])]
    have h2 : (1 - t) ^ n ≤ 1 := pow_le_one₀ (by linarith [ht.2]) (by linarith [ht.1])
    have h3 := (iteratedFDeriv ℝ (n + 1) f (x₀ + t • z)).le_opNorm (fun _ => z)
    simp only [Finset.prod_const, Finset.card_univ, Fintype.card_fin] at h3
    have h4 : ‖iteratedFDeriv ℝ (n + 1) f (x₀ + t • z)‖ * ‖z‖ ^ (n + 1) ≤ M * ‖z‖ ^ (n + 1) := by
      gcongr
    have h5 : 0 ≤ (1 - t) ^ n := pow_nonneg (by linarith [ht.2]) _
    calc _ ≤ 1 * (M * ‖z‖ ^ (n + 1)) := by
          apply mul_le_mul h2 (h3.trans h4) (norm_nonneg _) zero_le_one
      _ = _ := one_mul _
  have := intervalIntegral.norm_integral_le_of_norm_le_const hint
  simpa using this

/-- Difference of an output of an explicit method and the exact solution: sum over trees of the
defects of the order conditions, up to order `q + 1`. -/
theorem autonomous_defect {f : E → E} {P : FormalMultilinearSeries ℝ E E} {x₀ : E} {q : Nat}
    (hf : TaylorAt f P x₀ q) (hq : 1 ≤ q) (A : Nat → Nat → ℝ) (b : Nat → ℝ) (k : Nat → ℝ → E)
    (s : Nat) (hk : ∀ i, i < s → ∀ h, k i h = f (x₀ + h • ∑ j ∈ Finset.range i, A i j • k j h))
    (y : ℝ → E) (h0 : y 0 = x₀) (hy : ∀ᶠ h in 𝓝 0, HasDerivAt y (f (y h)) h) :
    (fun h => x₀ + h • ∑ i ∈ Finset.range s, b i • k i h - y h
      - bsum P (fun t => Tree.weight A b s t - Tree.exact t) q h)
      =O[𝓝 0] (fun h : ℝ => h ^ (q + 1)) := by
  have h1 := output_expand hf hq A b k s hk
  have h2 := exact_expand hf y h0 hy q (le_refl q)
  refine (h1.sub h2).congr_left (fun h => ?_)
  have : bsum P (fun t => Tree.weight A b s t - Tree.exact t) q h
      = bsum P (Tree.weight A b s) q h - bsum P Tree.exact q h := by
    unfold bsum
    rw [← Finset.sum_sub_distrib]
    simp only [mul_sub, sub_smul]
  rw [this]
  abel

theorem autonomous_order {f : E → E} {P : FormalMultilinearSeries ℝ E E} {x₀ : E} {q : Nat}
    (hf : TaylorAt f P x₀ q) (hq : 1 ≤ q) (A : Nat → Nat → ℝ) (b : Nat → ℝ) (k : Nat → ℝ → E)
    (s : Nat) (hk : ∀ i, i < s → ∀ h, k i h = f (x₀ + h • ∑ j ∈ Finset.range i, A i j • k j h))
    (y : ℝ → E) (h0 : y 0 = x₀) (hy : ∀ᶠ h in 𝓝 0, HasDerivAt y (f (y h)) h)
    (hoc : Tree.OrderConditions A b s q) :
    (fun h => x₀ + h • ∑ i ∈ Finset.range s, b i • k i h - y h)
      =O[𝓝 0] (fun h : ℝ => h ^ (q + 1)) := by
  refine (autonomous_defect hf hq A b k s hk y h0 hy).congr_left (fun h => ?_)
  have : bsum P (fun t => Tree.weight A b s t - Tree.exact t) q h = 0 := by
    unfold bsum
    apply Finset.sum_eq_zero
    intro t ht
    rw [Tree.mem_upTo] at ht
    simp only
    rw [hoc t ht, sub_self, mul_zero, zero_smul]
  rw [this, sub_zero]

/-- Order of an explicit method for time-dependent systems, under the row-sum condition. -/
theorem nonautonomous_order [CompleteSpace E] {f : ℝ → E → E} {t₀ : ℝ} {x₀ : E} {q : Nat}
    (hf : ContDiffAt ℝ q (fun p : ℝ × E => f p.1 p.2) (t₀, x₀)) (hq : 1 ≤ q)
    (A : Nat → Nat → ℝ) (b c : Nat → ℝ) (k : Nat → ℝ → E) (s : Nat)
    (hc : ∀ i, i < s → c i = ∑ j ∈ Finset.range i, A i j)
    (hk : ∀ i, i < s → ∀ h,
      k i h = f (t₀ + h * c i) (x₀ + h • ∑ j ∈ Finset.range i, A i j • k j h))
    (y : ℝ → E) (h0 : y t₀ = x₀) (hy : ∀ᶠ t in 𝓝 t₀, HasDerivAt y (f t (y t)) t)
    (hoc : Tree.OrderConditions A b s q) :
    (fun h => x₀ + h • ∑ i ∈ Finset.range s, b i • k i h - y (t₀ + h))
      =O[𝓝 0] (fun h : ℝ => h ^ (q + 1)) := by
  let g : ℝ × E → ℝ × E := fun p => (1, f p.1 p.2)
  have hg : ContDiffAt ℝ q g (t₀, x₀) := contDiffAt_const.prodMk hf
  have hT := taylorAt_of_contDiffAt hg hq
  let kk : Nat → ℝ → ℝ × E := fun i h => (1, k i h)
  have hkk : ∀ i, i < s → ∀ h, kk i h = g ((t₀, x₀) + h • ∑ j ∈ Finset.range i, A i j • kk j h) := by
    intro i hi h
    have e1 : (∑ j ∈ Finset.range i, A i j • kk j h) = (c i, ∑ j ∈ Finset.range i, A i j • k j h) := by
      rw [hc i hi]
      refine Prod.ext ?_ ?_
      · simp [kk, Prod.fst_sum]
      · simp [kk, Prod.snd_sum]
    rw [e1]
    simp only [kk, g, Prod.mk_add_mk, Prod.smul_mk, smul_eq_mul]
    rw [← hk i hi h]
  let yy : ℝ → ℝ × E := fun h => (t₀ + h, y (t₀ + h))
  have htend : Tendsto (fun h : ℝ => t₀ + h) (𝓝 0) (𝓝 t₀) := by
    have : Tendsto (fun h : ℝ => t₀ + h) (𝓝 0) (𝓝 (t₀ + 0)) := (continuous_const_add t₀).tendsto 0
    simpa using this
  have hyy : ∀ᶠ h in 𝓝 0, HasDerivAt yy (g (yy h)) h := by
    filter_upwards [htend.eventually hy] with h hh
    have h1 : HasDerivAt (fun h : ℝ => t₀ + h) 1 h := (hasDerivAt_id h).const_add t₀
    have h2 : HasDerivAt (fun h : ℝ => y (t₀ + h)) (f (t₀ + h) (y (t₀ + h))) h := by
      have := HasDerivAt.scomp h hh h1
      rw [one_smul] at this
      exact this
    exact h1.prodMk h2
  have := autonomous_order hT hq A b kk s hkk yy (by simp [yy, h0]) hyy hoc
  have h2 := (ContinuousLinearMap.isBigO_comp (ContinuousLinearMap.snd ℝ ℝ E) _ (𝓝 (0:ℝ))).trans this
  refine h2.congr_left (fun h => ?_)
  simp [kk, yy, Prod.snd_sum]

end Verif.RK
