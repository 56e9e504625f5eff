import Mathlib.Analysis.Calculus.ContDiff.RCLike
import Mathlib.Analysis.Calculus.ContDiff.Operations
import Mathlib.Analysis.Calculus.MeanValue
import Mathlib.Analysis.Calculus.ContDiff.Comp
import Mathlib.Analysis.Asymptotics.Lemmas
import Mathlib.Analysis.SpecialFunctions.Exp
import Mathlib.Tactic.Module
import Mathlib.Analysis.Calculus.Deriv.Pow

/-! # One-step methods: from the order at every point to convergence on an interval -/

namespace Verif.RK

open Filter Topology Asymptotics Set

section
variable {E : Type} [NormedAddCommGroup E] [NormedSpace ℝ E]

/-- Expansion in the second variable with a remainder that is uniform in the first. -/
theorem uniform_expand (n : Nat) (G : ℝ × ℝ → E) (t₀ : ℝ) (hG : ContDiffAt ℝ n G (t₀, 0)) :
    ∃ ρ > 0, ∃ M, 0 ≤ M ∧ ∀ t, |t - t₀| ≤ ρ → ∃ c : Nat → E, ∀ h, 0 ≤ h → h ≤ ρ →
      ‖G (t, h) - ∑ k ∈ Finset.range n, h ^ k • c k‖ ≤ M * h ^ n := by
  induction n generalizing G with
  | zero =>
    have hc : ContinuousAt G (t₀, 0) := hG.continuousAt
    have : ∀ᶠ z in 𝓝 (t₀, (0:ℝ)), ‖G z‖ < ‖G (t₀, 0)‖ + 1 :=
      hc.norm.eventually (gt_mem_nhds (lt_add_one _))
    obtain ⟨ε, hε, hb⟩ := Metric.eventually_nhds_iff.1 this
    refine ⟨ε / 2, by positivity, ‖G (t₀, 0)‖ + 1, by positivity, fun t ht => ⟨fun _ => 0, fun h h0 h1 => ?_⟩⟩
    simp only [Finset.range_zero, Finset.sum_empty, sub_zero, pow_zero, mul_one]
    refine (hb ?_).le
    rw [Prod.dist_eq, max_lt_iff, Real.dist_eq, Real.dist_eq, sub_zero, abs_of_nonneg h0]
    constructor <;> linarith
  | succ n ih =>
    let D : ℝ × ℝ → E := fun z => fderiv ℝ G z (0, 1)
    have hG' : ContDiffAt ℝ ((n : WithTop ℕ∞) + 1) G (t₀, 0) := by exact_mod_cast hG
    have hD : ContDiffAt ℝ n D (t₀, 0) :=
      hG'.fderiv_right_succ.clm_apply contDiffAt_const
    obtain ⟨ρ₁, hρ₁, M, hM, h1⟩ := ih D hD
    have hdiff : ∀ᶠ z in 𝓝 (t₀, (0:ℝ)), DifferentiableAt ℝ G z := by
      have h2 := hG.eventually (by simp)
      filter_upwards [h2] with z hz
      exact hz.differentiableAt (by simp)
    obtain ⟨ε, hε, hb⟩ := Metric.eventually_nhds_iff.1 hdiff
    refine ⟨min ρ₁ (ε / 2), by positivity, M, hM, fun t ht => ?_⟩
    obtain ⟨d, hd⟩ := h1 t (ht.trans (min_le_left _ _))
    refine ⟨fun k => if k = 0 then G (t, 0) else ((k : ℝ)⁻¹) • d (k - 1), fun h h0 hh => ?_⟩
    have e0 : ∀ s : ℝ, ∑ k ∈ Finset.range (n + 1), s ^ k • (if k = 0 then G (t, 0) else ((k : ℝ)⁻¹) • d (k - 1))
        = (∑ k ∈ Finset.range n, (s ^ (k + 1) * ((k : ℝ) + 1)⁻¹) • d k) + G (t, 0) := by
      intro s
      rw [Finset.sum_range_succ']
      simp [smul_smul]
    let φ : ℝ → E := fun s => G (t, s) - ∑ k ∈ Finset.range n, (s ^ (k + 1) * ((k : ℝ) + 1)⁻¹) • d k
    have hφ : ∀ s ∈ Icc 0 h, HasDerivWithinAt φ (D (t, s) - ∑ k ∈ Finset.range n, s ^ k • d k) (Icc 0 h) s := by
      intro s hs
      have hd1 : DifferentiableAt ℝ G (t, s) := by
        apply hb
        rw [Prod.dist_eq, max_lt_iff, Real.dist_eq, Real.dist_eq, sub_zero, abs_of_nonneg hs.1]
        have := min_le_right ρ₁ (ε / 2)
        constructor
        · linarith
        · linarith [hs.2]
      have a1 : HasDerivAt (fun s : ℝ => (t, s)) ((0 : ℝ), (1 : ℝ)) s :=
        (hasDerivAt_const s t).prodMk (hasDerivAt_id s)
      have a2 : HasDerivAt (fun s => G (t, s)) (D (t, s)) s := hd1.hasFDerivAt.comp_hasDerivAt s a1
      have a3 : HasDerivAt (fun s : ℝ => ∑ k ∈ Finset.range n, (s ^ (k + 1) * ((k : ℝ) + 1)⁻¹) • d k)
          (∑ k ∈ Finset.range n, s ^ k • d k) s := by
        apply HasDerivAt.fun_sum
        intro k _
        have b1 := ((hasDerivAt_pow (k + 1) s).mul_const ((k : ℝ) + 1)⁻¹).smul_const (d k)
        convert b1 using 2
        push_cast
        have : (k : ℝ) + 1 ≠ 0 := by positivity
        field_simp
      exact (a2.sub a3).hasDerivWithinAt
    have key := norm_image_sub_le_of_norm_deriv_le_segment' hφ (C := M * h ^ n) (fun s hs => by
      refine (hd s hs.1 ?_).trans ?_
      · exact (hs.2.le.trans hh).trans (min_le_left _ _)
      · exact mul_le_mul_of_nonneg_left (pow_le_pow_left₀ hs.1 hs.2.le n) hM) h ⟨h0, le_refl h⟩
    rw [e0]
    have e1 : φ h - φ 0 = G (t, h) - ((∑ k ∈ Finset.range n, (h ^ (k + 1) * ((k : ℝ) + 1)⁻¹) • d k) + G (t, 0)) := by
      simp only [φ]
      simp
      abel
    rw [← e1]
    refine key.trans (le_of_eq ?_)
    rw [sub_zero, pow_succ, mul_assoc]

/-- A polynomial of degree below `n` that is `O(hⁿ)` is zero. -/
theorem poly_zero (n : Nat) (c : Nat → E)
    (h : (fun h : ℝ => ∑ k ∈ Finset.range n, h ^ k • c k) =O[𝓝[>] 0] fun h : ℝ => h ^ n) :
    ∀ k < n, c k = 0 := by
  induction n generalizing c with
  | zero => intro k hk; omega
  | succ n ih =>
    have hc0 : c 0 = 0 := by
      have t1 : Tendsto (fun h : ℝ => ∑ k ∈ Finset.range (n + 1), h ^ k • c k) (𝓝[>] 0) (𝓝 (c 0)) := by
        have : Continuous (fun h : ℝ => ∑ k ∈ Finset.range (n + 1), h ^ k • c k) := by fun_prop
        have t := this.tendsto 0
        have e : ∑ k ∈ Finset.range (n + 1), (0:ℝ) ^ k • c k = c 0 := by
          rw [Finset.sum_range_succ']; simp
        simp only [e] at t
        exact t.mono_left nhdsWithin_le_nhds
      have t2 : Tendsto (fun h : ℝ => ∑ k ∈ Finset.range (n + 1), h ^ k • c k) (𝓝[>] 0) (𝓝 0) := by
        refine h.trans_tendsto ?_
        have : Tendsto (fun h : ℝ => h ^ (n + 1)) (𝓝 0) (𝓝 0) := by
          have := (continuous_pow (n + 1) : Continuous fun h : ℝ => h ^ (n + 1)).tendsto 0
          simpa using this
        exact this.mono_left nhdsWithin_le_nhds
      exact tendsto_nhds_unique t1 t2
    have hn : ∀ k < n, c (k + 1) = 0 := by
      apply ih (fun k => c (k + 1))
      obtain ⟨C, hC⟩ := h.bound
      refine IsBigO.of_bound C ?_
      filter_upwards [hC, self_mem_nhdsWithin] with s hs hpos
      have hpos : 0 < s := hpos
      rw [Finset.sum_range_succ'] at hs
      simp only [hc0, smul_zero, add_zero] at hs
      have e : ∑ k ∈ Finset.range n, s ^ (k + 1) • c (k + 1) = s • ∑ k ∈ Finset.range n, s ^ k • c (k + 1) := by
        rw [Finset.smul_sum]
        refine Finset.sum_congr rfl (fun k _ => ?_)
        rw [smul_smul, pow_succ, mul_comm]
      rw [e, norm_smul, pow_succ, norm_mul] at hs
      have hs' : ‖s‖ * ‖∑ k ∈ Finset.range n, s ^ k • c (k + 1)‖ ≤ ‖s‖ * (C * ‖s ^ n‖) := by
        refine hs.trans (le_of_eq (by ring))
      exact le_of_mul_le_mul_left hs' (by simpa using hpos.ne')
    intro k hk
    cases k with
    | zero => exact hc0
    | succ k => exact hn k (by omega)

/-- What is `O(hⁿ)` for every `t`, and smooth in both variables, is so uniformly near every point. -/
theorem uniform_local (n : Nat) (G : ℝ × ℝ → E) (t₀ : ℝ) (hG : ContDiffAt ℝ n G (t₀, 0)) :
    ∃ ρ > 0, ∃ M, 0 ≤ M ∧ ∀ t, |t - t₀| ≤ ρ → ((fun h => G (t, h)) =O[𝓝[>] 0] fun h : ℝ => h ^ n) →
      ∀ h, 0 ≤ h → h ≤ ρ → ‖G (t, h)‖ ≤ M * h ^ n := by
  obtain ⟨ρ, hρ, M, hM, h1⟩ := uniform_expand n G t₀ hG
  refine ⟨ρ, hρ, M, hM, fun t ht hO h h0 hh => ?_⟩
  obtain ⟨c, hc⟩ := h1 t ht
  have hz := poly_zero n c (by
    have h2 : (fun h => G (t, h) - ∑ k ∈ Finset.range n, h ^ k • c k) =O[𝓝[>] 0] fun h : ℝ => h ^ n := by
      refine IsBigO.of_bound M ?_
      have : ∀ᶠ s in 𝓝[>] (0:ℝ), s ∈ Ioo 0 ρ := Ioo_mem_nhdsGT hρ
      filter_upwards [this] with s hs
      rw [Real.norm_of_nonneg (pow_nonneg hs.1.le n)]
      exact hc s hs.1.le hs.2.le
    have := hO.sub h2
    simpa using this)
  have := hc h h0 hh
  rwa [Finset.sum_eq_zero (fun k hk => by rw [hz k (Finset.mem_range.1 hk), smul_zero]), sub_zero] at this

/-- Error recursion of a one-step method with steps at most `H`. -/
theorem error_recursion {L C H r t₀ b : ℝ} {p : Nat} (hL : 0 ≤ L) (hC : 0 ≤ C) (hH : 0 ≤ H)
    (e h τ : Nat → ℝ) (h0 : e 0 = 0) (hτ0 : τ 0 = t₀)
    (hsmall : C * H ^ p * (b - t₀) * Real.exp (L * (b - t₀)) ≤ r) (N : Nat)
    (hh : ∀ k < N, 0 ≤ h k ∧ h k ≤ H) (hτ : ∀ k < N, τ (k + 1) = τ k + h k) (hb : ∀ k ≤ N, τ k ≤ b)
    (hstep : ∀ k < N, e k ≤ r → e (k + 1) ≤ (1 + h k * L) * e k + C * h k ^ (p + 1)) :
    ∀ k ≤ N, t₀ ≤ τ k ∧ e k ≤ C * H ^ p * (τ k - t₀) * Real.exp (L * (τ k - t₀)) := by
  intro k
  induction k with
  | zero => intro _; rw [h0, hτ0]; simp
  | succ k ih =>
    intro hk
    obtain ⟨ih1, ih2⟩ := ih (by omega)
    obtain ⟨b1, b2⟩ := hh k (by omega)
    have hτk := hτ k (by omega)
    have hCH : 0 ≤ C * H ^ p := mul_nonneg hC (pow_nonneg hH p)
    refine ⟨by linarith, ?_⟩
    have hbk := hb k (by omega)
    have hd : 0 ≤ τ k - t₀ := by linarith
    have hek : e k ≤ r := by
      refine ih2.trans (le_trans ?_ hsmall)
      have : Real.exp (L * (τ k - t₀)) ≤ Real.exp (L * (b - t₀)) :=
        Real.exp_le_exp.2 (mul_le_mul_of_nonneg_left (by linarith) hL)
      have h3 : C * H ^ p * (τ k - t₀) ≤ C * H ^ p * (b - t₀) := mul_le_mul_of_nonneg_left (by linarith) hCH
      exact mul_le_mul h3 this (Real.exp_pos _).le (mul_nonneg hCH (by linarith))
    refine (hstep k (by omega) hek).trans ?_
    rw [hτk]
    set d := τ k - t₀ with hdd
    have e1 : τ k + h k - t₀ = d + h k := by rw [hdd]; ring
    rw [e1]
    have hexp : Real.exp (L * (d + h k)) = Real.exp (L * d) * Real.exp (L * h k) := by
      rw [← Real.exp_add]; ring_nf
    have h1e : 1 + h k * L ≤ Real.exp (L * h k) := by
      have := Real.add_one_le_exp (L * h k); linarith [mul_comm L (h k)]
    have hone : 1 ≤ Real.exp (L * (d + h k)) := Real.one_le_exp (mul_nonneg hL (by linarith))
    have hpow : C * h k ^ (p + 1) ≤ C * H ^ p * h k := by
      rw [pow_succ, ← mul_assoc]
      exact mul_le_mul_of_nonneg_right (mul_le_mul_of_nonneg_left (pow_le_pow_left₀ b1 b2 p) hC) b1
    have hpos1 : 0 ≤ 1 + h k * L := by have := mul_nonneg b1 hL; linarith
    calc (1 + h k * L) * e k + C * h k ^ (p + 1)
        ≤ (1 + h k * L) * (C * H ^ p * d * Real.exp (L * d)) + C * H ^ p * h k :=
          add_le_add (mul_le_mul_of_nonneg_left ih2 hpos1) hpow
      _ ≤ Real.exp (L * h k) * (C * H ^ p * d * Real.exp (L * d)) + C * H ^ p * h k * Real.exp (L * (d + h k)) := by
          refine add_le_add (mul_le_mul_of_nonneg_right h1e ?_) ?_
          · exact mul_nonneg (mul_nonneg hCH hd) (Real.exp_pos _).le
          · exact le_mul_of_one_le_right (mul_nonneg hCH b1) hone
      _ = C * H ^ p * (d + h k) * Real.exp (L * (d + h k)) := by rw [hexp]; ring

/-- A local error that is `O(h^(p+1))` at every point of the solution is so with one constant. -/
theorem local_uniform (p : Nat) (Ψ : ℝ → E → ℝ → E) (y : ℝ → E) (t₀ b : ℝ)
    (hΨ : ∀ t ∈ Icc t₀ b, ContDiffAt ℝ (p + 1 : Nat) (fun z : ℝ × E × ℝ => Ψ z.1 z.2.1 z.2.2) (t, y t, 0))
    (hy : ∀ t ∈ Icc t₀ b, ContDiffAt ℝ (p + 1 : Nat) y t)
    (hord : ∀ t ∈ Icc t₀ b, (fun h => y t + h • Ψ t (y t) h - y (t + h)) =O[𝓝[>] 0] fun h : ℝ => h ^ (p + 1)) :
    ∃ M, 0 ≤ M ∧ ∃ r > 0, ∀ t ∈ Icc t₀ b, ∀ s, 0 ≤ s → s ≤ r →
      ‖y t + s • Ψ t (y t) s - y (t + s)‖ ≤ M * s ^ (p + 1) := by
  have gen : ∃ M, 0 ≤ M ∧ ∃ r > 0, ∀ t ∈ Icc t₀ b, t ∈ Icc t₀ b → ∀ s, 0 ≤ s → s ≤ r →
      ‖y t + s • Ψ t (y t) s - y (t + s)‖ ≤ M * s ^ (p + 1) := by
    refine isCompact_Icc.induction_on (p := fun S => ∃ M, 0 ≤ M ∧ ∃ r > 0, ∀ t ∈ S, t ∈ Icc t₀ b → ∀ s, 0 ≤ s →
      s ≤ r → ‖y t + s • Ψ t (y t) s - y (t + s)‖ ≤ M * s ^ (p + 1)) ?_ ?_ ?_ ?_
    · exact ⟨0, le_refl _, 1, one_pos, by simp⟩
    · rintro S S' hSS ⟨L, hL, r, hr, h⟩
      exact ⟨L, hL, r, hr, fun t ht => h t (hSS ht)⟩
    · rintro S S' ⟨L, hL, r, hr, h⟩ ⟨L', hL', r', hr', h'⟩
      refine ⟨max L L', le_max_of_le_left hL, min r r', by positivity, ?_⟩
      rintro t (ht | ht) hti s s0 s1
      · exact (h t ht hti s s0 (s1.trans (min_le_left _ _))).trans
          (mul_le_mul_of_nonneg_right (le_max_left _ _) (pow_nonneg s0 _))
      · exact (h' t ht hti s s0 (s1.trans (min_le_right _ _))).trans
          (mul_le_mul_of_nonneg_right (le_max_right _ _) (pow_nonneg s0 _))
    · intro t ht
      have hG : ContDiffAt ℝ (p + 1 : Nat) (fun z : ℝ × ℝ => y z.1 + z.2 • Ψ z.1 (y z.1) z.2 - y (z.1 + z.2)) (t, 0) := by
        have c1 : ContDiffAt ℝ (p + 1 : Nat) (fun z : ℝ × ℝ => y z.1) (t, 0) :=
          ContDiffAt.comp (t, (0:ℝ)) (hy t ht) contDiffAt_fst
        have c2 : ContDiffAt ℝ (p + 1 : Nat) (fun z : ℝ × ℝ => y (z.1 + z.2)) (t, 0) := by
          have : ContDiffAt ℝ (p + 1 : Nat) y (t + 0) := by rw [add_zero]; exact hy t ht
          exact ContDiffAt.comp (t, (0:ℝ)) this (contDiffAt_fst.add contDiffAt_snd)
        have c3 : ContDiffAt ℝ (p + 1 : Nat) (fun z : ℝ × ℝ => Ψ z.1 (y z.1) z.2) (t, 0) :=
          ContDiffAt.comp (g := fun z : ℝ × E × ℝ => Ψ z.1 z.2.1 z.2.2) (t, (0:ℝ)) (hΨ t ht) (contDiffAt_fst.prodMk (c1.prodMk contDiffAt_snd))
        exact (c1.add (contDiffAt_snd.smul c3)).sub c2
      obtain ⟨ρ, hρ, M, hM, h1⟩ := uniform_local (p + 1) _ t hG
      refine ⟨{t' | |t' - t| ≤ ρ}, mem_nhdsWithin_of_mem_nhds ?_, M, hM, ρ, hρ, ?_⟩
      · filter_upwards [Metric.closedBall_mem_nhds t hρ] with t' h'
        rwa [Metric.mem_closedBall, Real.dist_eq] at h'
      · intro t' ht' hti s s0 s1
        exact h1 t' ht' (hord t' hti) s s0 s1
  obtain ⟨M, hM, r, hr, h⟩ := gen
  exact ⟨M, hM, r, hr, fun t ht => h t ht ht⟩

/-- Error of a one-step method `x ↦ x + h Ψ(t, x, h)` with variable steps: if the increment is smooth
near the exact solution and the local error is `O(h^(p+1))` at every point of it, then the error is at most a
constant times the `p`-th power of the largest step times the time passed. -/
theorem one_step_accumulates (p : Nat) (hp : 1 ≤ p) (Ψ : ℝ → E → ℝ → E) (y : ℝ → E) (t₀ b : ℝ)
    (hΨ : ∀ t ∈ Icc t₀ b, ContDiffAt ℝ (p + 1 : Nat) (fun z : ℝ × E × ℝ => Ψ z.1 z.2.1 z.2.2) (t, y t, 0))
    (hy : ∀ t ∈ Icc t₀ b, ContDiffAt ℝ (p + 1 : Nat) y t)
    (hord : ∀ t ∈ Icc t₀ b, (fun h => y t + h • Ψ t (y t) h - y (t + h)) =O[𝓝[>] 0] fun h : ℝ => h ^ (p + 1)) :
    ∃ C, 0 ≤ C ∧ ∃ h₀ > 0, ∀ H, 0 ≤ H → H ≤ h₀ → ∀ (N : Nat) (x : Nat → E) (τ h : Nat → ℝ), x 0 = y t₀ →
      τ 0 = t₀ → (∀ k < N, 0 ≤ h k ∧ h k ≤ H ∧ τ (k + 1) = τ k + h k ∧
        x (k + 1) = x k + h k • Ψ (τ k) (x k) (h k)) → (∀ k ≤ N, τ k ≤ b) →
      ∀ k ≤ N, ‖x k - y (τ k)‖ ≤ C * H ^ p * (τ k - t₀) := by
  -- Lipschitz bound of the increment near the solution
  have hLip : ∃ L, 0 ≤ L ∧ ∃ r > 0, ∀ t ∈ Icc t₀ b, ∀ s, 0 ≤ s → s ≤ r → ∀ u v, ‖u - y t‖ ≤ r → ‖v - y t‖ ≤ r →
      ‖Ψ t u s - Ψ t v s‖ ≤ L * ‖u - v‖ := by
    refine isCompact_Icc.induction_on (p := fun S => ∃ L, 0 ≤ L ∧ ∃ r > 0, ∀ t ∈ S, ∀ s, 0 ≤ s → s ≤ r →
      ∀ u v, ‖u - y t‖ ≤ r → ‖v - y t‖ ≤ r → ‖Ψ t u s - Ψ t v s‖ ≤ L * ‖u - v‖) ?_ ?_ ?_ ?_
    · exact ⟨0, le_refl _, 1, one_pos, by simp⟩
    · rintro S S' hSS ⟨L, hL, r, hr, h⟩
      exact ⟨L, hL, r, hr, fun t ht => h t (hSS ht)⟩
    · rintro S S' ⟨L, hL, r, hr, h⟩ ⟨L', hL', r', hr', h'⟩
      refine ⟨max L L', le_max_of_le_left hL, min r r', by positivity, ?_⟩
      rintro t (ht | ht) s s0 s1 u v hu hv
      · exact (h t ht s s0 (s1.trans (min_le_left _ _)) u v (hu.trans (min_le_left _ _))
          (hv.trans (min_le_left _ _))).trans (mul_le_mul_of_nonneg_right (le_max_left _ _) (norm_nonneg _))
      · exact (h' t ht s s0 (s1.trans (min_le_right _ _)) u v (hu.trans (min_le_right _ _))
          (hv.trans (min_le_right _ _))).trans (mul_le_mul_of_nonneg_right (le_max_right _ _) (norm_nonneg _))
    · intro t ht
      obtain ⟨L, W, hW, hlip⟩ := ((hΨ t ht).of_le (m := 1) (by simp)).exists_lipschitzOnWith
      obtain ⟨ε, hε, hball⟩ := Metric.mem_nhds_iff.1 hW
      have hyc : ContinuousAt y t := (hy t ht).continuousAt
      have h1 : ∀ᶠ t' in 𝓝 t, ‖y t' - y t‖ < ε / 2 ∧ |t' - t| < ε := by
        have a1 : ∀ᶠ t' in 𝓝 t, dist (y t') (y t) < ε / 2 := hyc.eventually (Metric.ball_mem_nhds _ (by positivity))
        have a2 : ∀ᶠ t' in 𝓝 t, dist t' t < ε := Metric.ball_mem_nhds _ hε
        filter_upwards [a1, a2] with t' b1 b2
        exact ⟨by rwa [dist_eq_norm] at b1, by rwa [Real.dist_eq] at b2⟩
      refine ⟨{t' | ‖y t' - y t‖ < ε / 2 ∧ |t' - t| < ε}, mem_nhdsWithin_of_mem_nhds h1, L, L.2, ε / 3,
        by positivity, ?_⟩
      rintro t' ⟨c1, c2⟩ s s0 s1 u v hu hv
      have hin : ∀ w, ‖w - y t'‖ ≤ ε / 3 → (t', w, s) ∈ W := by
        intro w hw
        apply hball
        rw [Metric.mem_ball, Prod.dist_eq, Prod.dist_eq, max_lt_iff, max_lt_iff, Real.dist_eq, dist_eq_norm,
          Real.dist_eq, sub_zero, abs_of_nonneg s0]
        refine ⟨c2, ?_, by linarith⟩
        calc ‖w - y t‖ = ‖(w - y t') + (y t' - y t)‖ := by congr 1; abel
          _ ≤ ‖w - y t'‖ + ‖y t' - y t‖ := norm_add_le _ _
          _ < ε := by linarith
      have := hlip.dist_le_mul _ (hin u hu) _ (hin v hv)
      rw [dist_eq_norm, dist_eq_norm] at this
      refine this.trans (le_of_eq ?_)
      congr 1
      simp [Prod.norm_def]
  have hLoc := local_uniform p Ψ y t₀ b hΨ hy hord
  obtain ⟨L, hL, r, hr, hlip⟩ := hLip
  obtain ⟨M, hM, r', hr', hloc⟩ := hLoc
  by_cases hb0 : b < t₀
  · refine ⟨0, le_refl _, 1, one_pos, fun H hH _ N x τ h hx0 hτ0 hs hbN k hk => ?_⟩
    have := hbN 0 (Nat.zero_le _)
    rw [hτ0] at this
    linarith
  have hb0 : 0 ≤ b - t₀ := by linarith [not_lt.1 hb0]
  set Ce := M * (b - t₀) * Real.exp (L * (b - t₀)) with hCe
  have hCe0 : 0 ≤ Ce := mul_nonneg (mul_nonneg hM hb0) (Real.exp_pos _).le
  refine ⟨M * Real.exp (L * (b - t₀)), mul_nonneg hM (Real.exp_pos _).le, min (min r r') (min 1 (r / (Ce + 1))), by positivity,
    fun H hH hH0 N x τ h hx0 hτ0 hs hbN k hk => ?_⟩
  have g1 : H ≤ r := hH0.trans ((min_le_left _ _).trans (min_le_left _ _))
  have g2 : H ≤ r' := hH0.trans ((min_le_left _ _).trans (min_le_right _ _))
  have g3 : H ≤ 1 := hH0.trans ((min_le_right _ _).trans (min_le_left _ _))
  have g4 : H ≤ r / (Ce + 1) := hH0.trans ((min_le_right _ _).trans (min_le_right _ _))
  have hmono : ∀ k ≤ N, t₀ ≤ τ k := by
    intro k
    induction k with
    | zero => intro _; rw [hτ0]
    | succ k ih =>
      intro hk
      obtain ⟨q1, _, q3, _⟩ := hs k (by omega)
      have := ih (by omega)
      linarith
  have hsmall : M * H ^ p * (b - t₀) * Real.exp (L * (b - t₀)) ≤ r := by
    have e : M * H ^ p * (b - t₀) * Real.exp (L * (b - t₀)) = Ce * H ^ p := by rw [hCe]; ring
    rw [e]
    have hHp : H ^ p ≤ H := by
      obtain ⟨q, rfl⟩ : ∃ q, p = q + 1 := ⟨p - 1, by omega⟩
      rw [pow_succ]
      exact mul_le_of_le_one_left hH (pow_le_one₀ hH g3)
    calc Ce * H ^ p ≤ Ce * (r / (Ce + 1)) := mul_le_mul_of_nonneg_left (hHp.trans g4) hCe0
      _ = r * (Ce / (Ce + 1)) := by ring
      _ ≤ r * 1 := by
          refine mul_le_mul_of_nonneg_left ?_ hr.le
          rw [div_le_one (by linarith)]
          linarith
      _ = r := mul_one r
  have := error_recursion (t₀ := t₀) (b := b) (p := p) hL hM hH (fun k => ‖x k - y (τ k)‖) h τ
    (by simp only [hx0, hτ0, sub_self, norm_zero]) hτ0 hsmall N
    (fun k hk => ⟨(hs k hk).1, (hs k hk).2.1⟩) (fun k hk => (hs k hk).2.2.1) hbN
    (fun k hk hek => by
      obtain ⟨q1, q2, q3, q4⟩ := hs k hk
      have hti : τ k ∈ Icc t₀ b := ⟨hmono k hk.le, hbN k hk.le⟩
      have e : x (k + 1) - y (τ (k + 1)) = (x k - y (τ k)) + h k • (Ψ (τ k) (x k) (h k) - Ψ (τ k) (y (τ k)) (h k))
          + (y (τ k) + h k • Ψ (τ k) (y (τ k)) (h k) - y (τ k + h k)) := by
        rw [q4, q3]; module
      rw [e]
      refine (norm_add_le _ _).trans (add_le_add ?_ (hloc _ hti _ q1 (q2.trans g2)))
      refine (norm_add_le _ _).trans ?_
      rw [norm_smul, Real.norm_of_nonneg q1]
      have hl := hlip (τ k) hti (h k) q1 (q2.trans g1) (x k) (y (τ k)) hek (by simp [hr.le])
      have := mul_le_mul_of_nonneg_left hl q1
      linarith)
  obtain ⟨w1, w2⟩ := this k hk
  refine w2.trans ?_
  have hbk := hbN k hk
  have hMH : 0 ≤ M * H ^ p * (τ k - t₀) := mul_nonneg (mul_nonneg hM (pow_nonneg hH p)) (by linarith)
  calc M * H ^ p * (τ k - t₀) * Real.exp (L * (τ k - t₀)) ≤ M * H ^ p * (τ k - t₀) * Real.exp (L * (b - t₀)) :=
        mul_le_mul_of_nonneg_left (Real.exp_le_exp.2 (mul_le_mul_of_nonneg_left (by linarith) hL)) hMH
    _ = M * Real.exp (L * (b - t₀)) * H ^ p * (τ k - t₀) := by ring

/-- Convergence of a one-step method `x ↦ x + h Ψ(t, x, h)` with variable steps: if the increment is smooth
near the exact solution and the local error is `O(h^(p+1))` at every point of it, then the error on the
interval is at most a constant times the `p`-th power of the largest step. -/
theorem one_step_converges (p : Nat) (hp : 1 ≤ p) (Ψ : ℝ → E → ℝ → E) (y : ℝ → E) (t₀ b : ℝ)
    (hΨ : ∀ t ∈ Icc t₀ b, ContDiffAt ℝ (p + 1 : Nat) (fun z : ℝ × E × ℝ => Ψ z.1 z.2.1 z.2.2) (t, y t, 0))
    (hy : ∀ t ∈ Icc t₀ b, ContDiffAt ℝ (p + 1 : Nat) y t)
    (hord : ∀ t ∈ Icc t₀ b, (fun h => y t + h • Ψ t (y t) h - y (t + h)) =O[𝓝[>] 0] fun h : ℝ => h ^ (p + 1)) :
    ∃ C, 0 ≤ C ∧ ∃ h₀ > 0, ∀ H, 0 ≤ H → H ≤ h₀ → ∀ (N : Nat) (x : Nat → E) (τ h : Nat → ℝ), x 0 = y t₀ →
      τ 0 = t₀ → (∀ k < N, 0 ≤ h k ∧ h k ≤ H ∧ τ (k + 1) = τ k + h k ∧
        x (k + 1) = x k + h k • Ψ (τ k) (x k) (h k)) → (∀ k ≤ N, τ k ≤ b) →
      ∀ k ≤ N, ‖x k - y (τ k)‖ ≤ C * H ^ p := by
  obtain ⟨C, hC, h₀, hh₀, key⟩ := one_step_accumulates p hp Ψ y t₀ b hΨ hy hord
  refine ⟨C * max 0 (b - t₀), by positivity, h₀, hh₀, fun H hH hH0 N x τ h hx0 hτ0 hs hbN k hk => ?_⟩
  refine (key H hH hH0 N x τ h hx0 hτ0 hs hbN k hk).trans ?_
  have h1 : τ k - t₀ ≤ max 0 (b - t₀) := (sub_le_sub_right (hbN k hk) t₀).trans (le_max_right _ _)
  calc C * H ^ p * (τ k - t₀) ≤ C * H ^ p * max 0 (b - t₀) :=
        mul_le_mul_of_nonneg_left h1 (mul_nonneg hC (pow_nonneg hH p))
    _ = C * max 0 (b - t₀) * H ^ p := by ring

end

end Verif.RK
