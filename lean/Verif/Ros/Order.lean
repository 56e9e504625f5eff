import Verif.RK.Series
import Mathlib.Analysis.Calculus.ContDiff.RCLike
import Mathlib.Analysis.Calculus.ContDiff.Operations

/-! # Orders of W methods

Expansions of the stages of the methods W1 and SW2(4), with any operator in place of the Jacobian -/

namespace Verif.Ros

open Asymptotics Filter Topology

variable {F : Type} [NormedAddCommGroup F] [NormedSpace ℝ F]

theorem pow_le {l : Filter ℝ} (hl : l ≤ 𝓝 0) {m n : Nat} (h : n ≤ m) :
    (fun h : ℝ => h ^ m) =O[l] (fun h : ℝ => h ^ n) := (RK.pow_isBigO h).mono hl

theorem smul_big {l : Filter ℝ} {u : ℝ → F} {n : Nat} (m : Nat) (c : ℝ) (h : u =O[l] (fun h : ℝ => h ^ n)) :
    (fun h => (c * h ^ m) • u h) =O[l] (fun h : ℝ => h ^ (m + n)) := by
  have h1 : (fun h : ℝ => c * h ^ m) =O[l] (fun h : ℝ => h ^ m) := (isBigO_refl _ _).const_mul_left c
  have := h1.smul h
  simpa [pow_add] using this

omit [NormedSpace ℝ F] in
theorem const_big (l : Filter ℝ) (v : F) : (fun _ : ℝ => v) =O[l] (fun h : ℝ => h ^ 0) := by
  simpa using isBigO_const_const v (one_ne_zero : (1 : ℝ) ≠ 0) l

theorem clm_big {G : Type} [NormedAddCommGroup G] [NormedSpace ℝ G] {l : Filter ℝ} {u : ℝ → F} {n : Nat}
    (J : F →L[ℝ] G) (h : u =O[l] (fun h : ℝ => h ^ n)) : (fun h => J (u h)) =O[l] (fun h : ℝ => h ^ n) :=
  (J.isBigO_comp u l).trans h

/-- Expansion of the solution of `k - h d J k = v` -/
theorem resolvent {l : Filter ℝ} (hl : l ≤ 𝓝 0) (J : F →L[ℝ] F) (d : ℝ) {k v : ℝ → F}
    (hk : ∀ᶠ h in l, k h - (h * d) • J (k h) = v h) (hv : v =O[l] (fun h : ℝ => h ^ 0)) :
    k =O[l] (fun h : ℝ => h ^ 0) ∧ (fun h => k h - v h - (d * h ^ 1) • J (v h)) =O[l] (fun h : ℝ => h ^ 2) := by
  have hsmall : ∀ᶠ h in l, |h * d| * ‖J‖ ≤ 1 / 2 := by
    have ht : Tendsto (fun h : ℝ => |h * d| * ‖J‖) l (𝓝 0) := by
      have : Tendsto (fun h : ℝ => |h * d| * ‖J‖) (𝓝 0) (𝓝 (|0 * d| * ‖J‖)) :=
        (((continuous_id.mul continuous_const).abs).mul continuous_const).tendsto 0
      simp only [zero_mul, abs_zero] at this
      exact this.mono_left hl
    filter_upwards [ht.eventually (gt_mem_nhds (by norm_num : (0 : ℝ) < 1 / 2))] with h hh
    exact hh.le
  have h1 : k =O[l] (fun h : ℝ => h ^ 0) := by
    refine (IsBigO.of_bound 2 ?_ : k =O[l] v).trans hv
    filter_upwards [hk, hsmall] with h e1 e2
    have e3 : k h = v h + (h * d) • J (k h) := by rw [← e1]; abel
    have e4 : ‖k h‖ ≤ ‖v h‖ + |h * d| * (‖J‖ * ‖k h‖) := by
      calc ‖k h‖ = ‖v h + (h * d) • J (k h)‖ := by rw [← e3]
        _ ≤ ‖v h‖ + ‖(h * d) • J (k h)‖ := norm_add_le _ _
        _ ≤ ‖v h‖ + |h * d| * (‖J‖ * ‖k h‖) := by
          rw [norm_smul, Real.norm_eq_abs]
          gcongr
          exact J.le_opNorm _
    have e5 : |h * d| * (‖J‖ * ‖k h‖) ≤ 1 / 2 * ‖k h‖ := by
      rw [← mul_assoc]
      exact mul_le_mul_of_nonneg_right e2 (norm_nonneg _)
    linarith
  refine ⟨h1, ?_⟩
  have h2 : (fun h => k h - v h - (d * h ^ 1) • J (v h)) =ᶠ[l] fun h => (d ^ 2 * h ^ 2) • J (J (k h)) := by
    filter_upwards [hk] with h e
    have e1 : k h - v h = (h * d) • J (k h) := by rw [← e]; abel
    have e2 : v h = k h - (h * d) • J (k h) := e.symm
    rw [e1, e2, map_sub, map_smul]
    module
  exact h2.trans_isBigO (smul_big 2 (d ^ 2) (clm_big J (clm_big J h1)))

/-- The right-hand side along a curve through the initial point with a known direction -/
theorem rhs_expand {l : Filter ℝ} (hl : l ≤ 𝓝 0) {f : ℝ → F → F} {t0 : ℝ} {x0 : F}
    (hf : ContDiffAt ℝ 2 (fun p : ℝ × F => f p.1 p.2) (t0, x0)) (c : ℝ) {z : ℝ → F} {z0 : F}
    (hz : (fun h => z h - z0) =O[l] (fun h : ℝ => h ^ 1)) :
    (fun h => f (t0 + c * h) (x0 + h • z h) - f t0 x0
      - h • fderiv ℝ (fun p : ℝ × F => f p.1 p.2) (t0, x0) (c, z0)) =O[l] (fun h : ℝ => h ^ 2) := by
  set g : ℝ × F → F := fun p => f p.1 p.2 with hg
  set w : ℝ × F := (t0, x0) with hw
  -- the straight line
  have hline : (fun h : ℝ => g (w + h • (c, z0)) - g w - h • fderiv ℝ g w (c, z0))
      =O[𝓝 0] (fun h : ℝ => h ^ 2) := by
    have hd1 : ∀ᶠ p in 𝓝 w, DifferentiableAt ℝ g p := by
      filter_upwards [hf.eventually (by simp)] with p hp
      exact hp.differentiableAt (by simp)
    have hcont : Tendsto (fun h : ℝ => w + h • (c, z0)) (𝓝 0) (𝓝 w) := by
      have : Continuous (fun h : ℝ => w + h • (c, z0)) := by fun_prop
      simpa using this.tendsto 0
    have hder : ∀ᶠ h : ℝ in 𝓝 0, HasDerivAt (fun h : ℝ => g (w + h • (c, z0)) - g w - h • fderiv ℝ g w (c, z0))
        (fderiv ℝ g (w + h • (c, z0)) (c, z0) - fderiv ℝ g w (c, z0)) h := by
      filter_upwards [hcont.eventually hd1] with h hh
      have h1 : HasDerivAt (fun h : ℝ => w + h • (c, z0)) ((1 : ℝ) • (c, z0)) h :=
        ((hasDerivAt_id h).smul_const _).const_add _
      have h2 := hh.hasFDerivAt.comp_hasDerivAt h h1
      have h3 : HasDerivAt (fun h : ℝ => h • fderiv ℝ g w (c, z0)) ((1 : ℝ) • fderiv ℝ g w (c, z0)) h :=
        (hasDerivAt_id h).smul_const _
      have := (h2.sub_const (g w)).fun_sub h3
      simpa using this
    refine RK.integrate_isBigO (m := 1) (by simp) hder ?_
    have hfd : DifferentiableAt ℝ (fderiv ℝ g) w :=
      (hf.fderiv_right (m := 1) (by norm_num)).differentiableAt (by simp)
    have h1 : (fun p => fderiv ℝ g p - fderiv ℝ g w) =O[𝓝 w] (fun p => p - w) := hfd.isBigO_sub
    have h2 : (fun h : ℝ => fderiv ℝ g (w + h • (c, z0)) - fderiv ℝ g w) =O[𝓝 0] (fun h : ℝ => h ^ 1) := by
      have := h1.comp_tendsto hcont
      refine this.trans ?_
      have : (fun h : ℝ => (c * 0 + 1 * h ^ 1) • ((c, z0) : ℝ × F)) =O[𝓝 0] (fun h : ℝ => h ^ 1) := by
        simpa using smul_big (l := 𝓝 0) 1 1 (const_big (𝓝 0) ((c, z0) : ℝ × F))
      refine this.congr_left (fun h => ?_)
      simp
    exact clm_big (ContinuousLinearMap.apply ℝ F ((c, z0) : ℝ × F)) h2
  -- the difference to the straight line
  have hzb : z =O[l] (fun h : ℝ => h ^ 0) := by
    have := (hz.trans (pow_le hl (Nat.zero_le 1))).add (const_big l z0)
    simpa using this
  have hcont1 : Tendsto (fun h : ℝ => w + h • (c, z h)) l (𝓝 w) := by
    have h1 : (fun h : ℝ => (1 * h ^ 1) • (c, z h)) =O[l] (fun h : ℝ => h ^ 1) := by
      have : (fun h => ((c, z h) : ℝ × F)) =O[l] (fun h : ℝ => h ^ 0) :=
        (const_big l c).prod_left hzb
      simpa using smul_big 1 1 this
    have h2 : Tendsto (fun h : ℝ => h ^ 1) l (𝓝 0) := by
      simp only [pow_one]
      exact tendsto_id.mono_left hl
    have h3 := (h1.trans_tendsto h2).const_add w
    simpa using h3
  have hcont2 : Tendsto (fun h : ℝ => w + h • (c, z0)) l (𝓝 w) := by
    have : Continuous (fun h : ℝ => w + h • (c, z0)) := by fun_prop
    have := this.tendsto 0
    rw [zero_smul, add_zero] at this
    exact this.mono_left hl
  obtain ⟨C, s, hs, hlip⟩ := (hf.of_le (by norm_num : (1 : WithTop ℕ∞) ≤ 2)).exists_lipschitzOnWith
  have hdiff : (fun h : ℝ => g (w + h • (c, z h)) - g (w + h • (c, z0))) =O[l] (fun h : ℝ => h ^ 2) := by
    have h1 : (fun h : ℝ => g (w + h • (c, z h)) - g (w + h • (c, z0)))
        =O[l] (fun h : ℝ => (1 * h ^ 1) • (z h - z0)) := by
      refine IsBigO.of_bound C ?_
      filter_upwards [hcont1.eventually hs, hcont2.eventually hs] with h e1 e2
      have := hlip.dist_le_mul _ e1 _ e2
      rw [dist_eq_norm, dist_eq_norm] at this
      refine this.trans ?_
      rw [add_sub_add_left_eq_sub, ← smul_sub]
      have hm : max 0 (|h| * ‖z h - z0‖) = |h| * ‖z h - z0‖ :=
        max_eq_right (mul_nonneg (abs_nonneg _) (norm_nonneg _))
      simp [norm_smul, hm]
    exact h1.trans (smul_big 1 1 hz)
  have := hdiff.add (hline.mono hl)
  refine this.congr_left (fun h => ?_)
  simp only [hg, hw, Prod.smul_mk, Prod.mk_add_mk, smul_eq_mul]
  rw [mul_comm h c]
  abel

/-- Expansion of the solution of the differential equation -/
theorem solution_expand {f : ℝ → F → F} {t0 : ℝ} {x0 : F}
    (hf : ContDiffAt ℝ 2 (fun p : ℝ × F => f p.1 p.2) (t0, x0)) {y : ℝ → F} (h0 : y t0 = x0)
    (hy : ∀ᶠ t in 𝓝 t0, HasDerivAt y (f t (y t)) t) :
    (fun h : ℝ => y (t0 + h) - x0 - h • f t0 x0
      - (1 / 2 * h ^ 2) • fderiv ℝ (fun p : ℝ × F => f p.1 p.2) (t0, x0) (1, f t0 x0))
      =O[𝓝 0] (fun h : ℝ => h ^ 3) := by
  have hshift : Tendsto (fun h : ℝ => t0 + h) (𝓝 0) (𝓝 t0) := by
    have : Continuous (fun h : ℝ => t0 + h) := by fun_prop
    simpa using this.tendsto 0
  have hder : ∀ᶠ h : ℝ in 𝓝 0, HasDerivAt (fun h => y (t0 + h)) (f (t0 + h) (y (t0 + h))) h := by
    filter_upwards [hshift.eventually hy] with h hh
    have h1 : HasDerivAt (fun h : ℝ => t0 + h) 1 h := (hasDerivAt_id h).const_add t0
    have h2 := hh.scomp h h1
    rw [one_smul] at h2
    exact h2
  -- first order
  have hd0 : HasDerivAt (fun h => y (t0 + h)) (f t0 x0) 0 := by
    have := hder.self_of_nhds
    simpa [h0] using this
  have b1 : (fun h : ℝ => y (t0 + h) - x0) =O[𝓝 0] (fun h : ℝ => h ^ 1) := by
    have := hd0.isBigO_sub
    simpa [h0] using this
  have hyc : Tendsto (fun h : ℝ => ((t0 + h, y (t0 + h)) : ℝ × F)) (𝓝 0) (𝓝 (t0, x0)) := by
    refine hshift.prodMk_nhds ?_
    have := hd0.continuousAt.tendsto
    simpa [h0] using this
  have b2 : (fun h : ℝ => f (t0 + h) (y (t0 + h)) - f t0 x0) =O[𝓝 0] (fun h : ℝ => h ^ 1) := by
    have h1 : (fun p : ℝ × F => f p.1 p.2 - f t0 x0) =O[𝓝 (t0, x0)] (fun p => p - (t0, x0)) :=
      (hf.differentiableAt (by simp)).isBigO_sub
    have h2 := h1.comp_tendsto hyc
    refine h2.trans ?_
    have h3 : (fun h : ℝ => (h, y (t0 + h) - x0)) =O[𝓝 0] (fun h : ℝ => h ^ 1) :=
      IsBigO.prod_left (by simpa using isBigO_refl (fun h : ℝ => h) (𝓝 0)) b1
    refine h3.congr_left (fun h => ?_)
    simp
  have b3 : (fun h : ℝ => y (t0 + h) - x0 - h • f t0 x0) =O[𝓝 0] (fun h : ℝ => h ^ 2) := by
    refine RK.integrate_isBigO (m := 1) (by simp [h0]) ?_ b2
    filter_upwards [hder] with h hh
    have h3 : HasDerivAt (fun h : ℝ => h • f t0 x0) ((1 : ℝ) • f t0 x0) h := (hasDerivAt_id h).smul_const _
    simpa using (hh.sub_const x0).fun_sub h3
  -- second order
  set z : ℝ → F := fun h => if h = 0 then f t0 x0 else h⁻¹ • (y (t0 + h) - x0) with hz
  have hyz : ∀ h : ℝ, y (t0 + h) = x0 + h • z h := by
    intro h
    by_cases hh : h = 0
    · simp [hh, h0]
    · simp only [hz, if_neg hh, smul_smul, mul_inv_cancel₀ hh, one_smul]
      abel
  have b4 : (fun h : ℝ => z h - f t0 x0) =O[𝓝 0] (fun h : ℝ => h ^ 1) := by
    obtain ⟨C, hC⟩ := b3.bound
    refine IsBigO.of_bound C ?_
    filter_upwards [hC] with h hh
    by_cases h' : h = 0
    · simp [hz, h']
    · have e : z h - f t0 x0 = h⁻¹ • (y (t0 + h) - x0 - h • f t0 x0) := by
        simp only [hz, if_neg h']
        rw [smul_sub h⁻¹ (y (t0 + h) - x0), smul_smul, inv_mul_cancel₀ h', one_smul]
      rw [e, norm_smul, norm_inv]
      have hp : 0 < ‖h‖ := norm_pos_iff.2 h'
      rw [norm_pow] at hh
      rw [pow_one, inv_mul_le_iff₀ hp]
      calc _ ≤ _ := hh
        _ = _ := by ring
  have b5 := rhs_expand le_rfl hf 1 b4
  refine RK.integrate_isBigO (m := 2) (by simp [h0]) ?_ b5
  filter_upwards [hder] with h hh
  have h3 : HasDerivAt (fun h : ℝ => h • f t0 x0) ((1 : ℝ) • f t0 x0) h := (hasDerivAt_id h).smul_const _
  have h4 : HasDerivAt (fun h : ℝ => (1 / 2 * h ^ 2) •
      fderiv ℝ (fun p : ℝ × F => f p.1 p.2) (t0, x0) (1, f t0 x0))
      (h • fderiv ℝ (fun p : ℝ × F => f p.1 p.2) (t0, x0) (1, f t0 x0)) h := by
    have : HasDerivAt (fun h : ℝ => 1 / 2 * h ^ 2) h h := by
      have := (hasDerivAt_pow 2 h).const_mul (1 / 2)
      refine this.congr_deriv ?_
      norm_num
      ring
    exact this.smul_const _
  have := ((hh.sub_const x0).fun_sub h3).fun_sub h4
  rw [one_mul, ← hyz, ← one_smul ℝ (f t0 x0)]
  simpa using this

/-- From an expansion to first order -/
theorem first_order {l : Filter ℝ} (hl : l ≤ 𝓝 0) {v : ℝ → F} {f0 b : F}
    (hv : (fun h => v h - f0 - h • b) =O[l] (fun h : ℝ => h ^ 2)) :
    (fun h => v h - f0) =O[l] (fun h : ℝ => h ^ 1) := by
  have h1 := smul_big 1 1 (const_big l b)
  have := (hv.trans (pow_le hl (by norm_num : 1 ≤ 2))).add h1
  refine this.congr_left (fun h => ?_)
  rw [one_mul, pow_one]
  abel

omit [NormedSpace ℝ F] in
theorem zero_order {l : Filter ℝ} (hl : l ≤ 𝓝 0) {v : ℝ → F} {f0 : F}
    (hv : (fun h => v h - f0) =O[l] (fun h : ℝ => h ^ 1)) : v =O[l] (fun h : ℝ => h ^ 0) := by
  have := (hv.trans (pow_le hl (Nat.zero_le 1))).add (const_big l f0)
  simpa using this

/-- Expansion of a stage -/
theorem stage {l : Filter ℝ} (hl : l ≤ 𝓝 0) (J : F →L[ℝ] F) (d : ℝ) {k v : ℝ → F} {f0 b : F}
    (hk : ∀ᶠ h in l, k h - (h * d) • J (k h) = v h)
    (hv : (fun h => v h - f0 - h • b) =O[l] (fun h : ℝ => h ^ 2)) :
    (fun h => k h - f0 - h • (b + d • J f0)) =O[l] (fun h : ℝ => h ^ 2) := by
  have h1 := first_order hl hv
  have h2 := (resolvent hl J d hk (zero_order hl h1)).2
  have h3 := smul_big 1 d (clm_big J h1)
  have := (h2.add hv).add h3
  refine this.congr_left (fun h => ?_)
  rw [map_sub]
  module

/-- The stages of W1 -/
theorem w1_order {l : Filter ℝ} (hl : l ≤ 𝓝 0) {f : ℝ → F → F} {t0 : ℝ} {x0 : F}
    (hf : ContDiffAt ℝ 2 (fun p : ℝ × F => f p.1 p.2) (t0, x0)) {y : ℝ → F} (h0 : y t0 = x0)
    (hy : ∀ᶠ t in 𝓝 t0, HasDerivAt y (f t (y t)) t) (J : F →L[ℝ] F) (d : ℝ) {k1 : ℝ → F}
    (h1 : ∀ᶠ h in l, k1 h - (h * d) • J (k1 h) = f t0 x0) :
    (fun h => x0 + h • k1 h - y (t0 + h) - (h ^ 2) • (d • J (f t0 x0)
      - (1 / 2 : ℝ) • fderiv ℝ (fun p : ℝ × F => f p.1 p.2) (t0, x0) (1, f t0 x0)))
      =O[l] (fun h : ℝ => h ^ 3) := by
  have a1 : (fun h => k1 h - f t0 x0 - h • ((0 : F) + d • J (f t0 x0))) =O[l] (fun h : ℝ => h ^ 2) :=
    stage hl J d h1 (by simpa using isBigO_zero (E' := F) (fun h : ℝ => h ^ 2) l)
  have a2 := smul_big 1 1 a1
  have a3 := (solution_expand hf h0 hy).mono hl
  refine (a2.sub a3).congr_left (fun h => ?_)
  module

/-- The stages of SW2(4) -/
structure SW (l : Filter ℝ) (f : ℝ → F → F) (t0 : ℝ) (x0 : F) (J : F →L[ℝ] F) (d : ℝ)
    (k1 k2 : ℝ → F) : Prop where
  eq1 : ∀ᶠ h in l, k1 h - (h * d) • J (k1 h) = f t0 x0
  eq2 : ∀ᶠ h in l, k2 h - (h * d) • J (k2 h) =
    f (t0 + 2 / 3 * h) (x0 + (2 / 3 * h) • k1 h) - (4 / 3 * h * d) • J (k1 h)

/-- Expansions of the first two stages of SW2(4) -/
theorem sw_stages {l : Filter ℝ} (hl : l ≤ 𝓝 0) {f : ℝ → F → F} {t0 : ℝ} {x0 : F}
    (hf : ContDiffAt ℝ 2 (fun p : ℝ × F => f p.1 p.2) (t0, x0)) {J : F →L[ℝ] F} {d : ℝ} {k1 k2 : ℝ → F}
    (hk : SW l f t0 x0 J d k1 k2) :
    (fun h => k1 h - f t0 x0 - h • (d • J (f t0 x0))) =O[l] (fun h : ℝ => h ^ 2) ∧
    (fun h => k2 h - f t0 x0 - h • ((2 / 3 : ℝ) • fderiv ℝ (fun p : ℝ × F => f p.1 p.2) (t0, x0) (1, f t0 x0)
      - (d / 3) • J (f t0 x0))) =O[l] (fun h : ℝ => h ^ 2) := by
  have a1 : (fun h => k1 h - f t0 x0 - h • ((0 : F) + d • J (f t0 x0))) =O[l] (fun h : ℝ => h ^ 2) :=
    stage hl J d hk.eq1 (by simpa using isBigO_zero (E' := F) (fun h : ℝ => h ^ 2) l)
  rw [zero_add] at a1
  refine ⟨a1, ?_⟩
  have b1 := first_order hl a1
  have b2 : (fun h => (2 / 3 : ℝ) • k1 h - (2 / 3 : ℝ) • f t0 x0) =O[l] (fun h : ℝ => h ^ 1) := by
    have := b1.const_smul_left (2 / 3 : ℝ)
    refine this.congr_left (fun h => ?_)
    simp [smul_sub]
  have b3 := rhs_expand hl hf (2 / 3) b2
  have b4 := smul_big 1 (4 / 3 * d) (clm_big J b1)
  have hD : fderiv ℝ (fun p : ℝ × F => f p.1 p.2) (t0, x0) (2 / 3, (2 / 3 : ℝ) • f t0 x0)
      = (2 / 3 : ℝ) • fderiv ℝ (fun p : ℝ × F => f p.1 p.2) (t0, x0) (1, f t0 x0) := by
    rw [← map_smul]
    simp
  rw [hD] at b3
  have b5 := stage hl J d hk.eq2 (f0 := f t0 x0)
    (b := (2 / 3 : ℝ) • fderiv ℝ (fun p : ℝ × F => f p.1 p.2) (t0, x0) (1, f t0 x0) - (4 / 3 * d) • J (f t0 x0)) (by
      refine (b3.sub b4).congr_left (fun h => ?_)
      rw [map_sub, smul_smul h, mul_comm h]
      module)
  refine b5.congr_left (fun h => ?_)
  module

/-- A step of SW2(4) has a local error of third order. -/
theorem sw_order {l : Filter ℝ} (hl : l ≤ 𝓝 0) {f : ℝ → F → F} {t0 : ℝ} {x0 : F}
    (hf : ContDiffAt ℝ 2 (fun p : ℝ × F => f p.1 p.2) (t0, x0)) {y : ℝ → F} (h0 : y t0 = x0)
    (hy : ∀ᶠ t in 𝓝 t0, HasDerivAt y (f t (y t)) t) {J : F →L[ℝ] F} {d : ℝ} {k1 k2 : ℝ → F}
    (hk : SW l f t0 x0 J d k1 k2) :
    (fun h => x0 + h • ((1 / 4 : ℝ) • k1 h + (3 / 4 : ℝ) • k2 h) - y (t0 + h)) =O[l] (fun h : ℝ => h ^ 3) := by
  obtain ⟨a1, a2⟩ := sw_stages hl hf hk
  have b1 := smul_big 1 (1 / 4) a1
  have b2 := smul_big 1 (3 / 4) a2
  have b3 := (solution_expand hf h0 hy).mono hl
  refine ((b1.add b2).sub b3).congr_left (fun h => ?_)
  module

/-- The error estimate of SW2(4) is of third order. -/
theorem sw_estimate {l : Filter ℝ} (hl : l ≤ 𝓝 0) {f : ℝ → F → F} {t0 : ℝ} {x0 : F}
    (hf : ContDiffAt ℝ 2 (fun p : ℝ × F => f p.1 p.2) (t0, x0)) {J : F →L[ℝ] F} {d : ℝ} {k1 k2 k3 k4 : ℝ → F}
    (hk : SW l f t0 x0 J d k1 k2)
    (h3 : ∀ᶠ h in l, k3 h - (h * d) • J (k3 h) =
      f (t0 + h) (x0 + h • ((1 / 4 : ℝ) • k1 h + (3 / 4 : ℝ) • k2 h)))
    (h4 : ∀ᶠ h in l, k4 h - (h * d) • J (k4 h) =
      f (t0 + 5 / 3 * h) (x0 + h • ((1 / 4 : ℝ) • k1 h + (3 / 4 : ℝ) • k2 h) + (2 / 3 * h) • k3 h)
        + (h * d) • ((2 / 3 : ℝ) • J (k1 h) + (6 : ℝ) • J (k2 h))) :
    (fun h => (h / 8) • ((5 : ℝ) • (k3 h - k2 h) + k1 h - k4 h)) =O[l] (fun h : ℝ => h ^ 3) := by
  obtain ⟨a1, a2⟩ := sw_stages hl hf hk
  have c1 := first_order hl a1
  have c2 := first_order hl a2
  have b3 : (fun h => ((1 / 4 : ℝ) • k1 h + (3 / 4 : ℝ) • k2 h) - f t0 x0) =O[l] (fun h : ℝ => h ^ 1) := by
    refine ((c1.const_smul_left (1 / 4 : ℝ)).add (c2.const_smul_left (3 / 4 : ℝ))).congr_left (fun h => ?_)
    simp only [Pi.smul_apply]
    module
  have d3 := rhs_expand hl hf 1 b3
  have a3 := stage hl J d (k := k3) (by simpa only [one_mul] using h3) d3
  have c3 := first_order hl a3
  have b4 : (fun h => ((1 / 4 : ℝ) • k1 h + (3 / 4 : ℝ) • k2 h + (2 / 3 : ℝ) • k3 h) - (5 / 3 : ℝ) • f t0 x0)
      =O[l] (fun h : ℝ => h ^ 1) := by
    refine (b3.add (c3.const_smul_left (2 / 3 : ℝ))).congr_left (fun h => ?_)
    simp only [Pi.smul_apply]
    module
  have d4 := rhs_expand hl hf (5 / 3) b4
  have hD : fderiv ℝ (fun p : ℝ × F => f p.1 p.2) (t0, x0) (5 / 3, (5 / 3 : ℝ) • f t0 x0)
      = (5 / 3 : ℝ) • fderiv ℝ (fun p : ℝ × F => f p.1 p.2) (t0, x0) (1, f t0 x0) := by
    rw [← map_smul]
    simp
  rw [hD] at d4
  have e1 := smul_big 1 (2 / 3 * d) (clm_big J c1)
  have e2 := smul_big 1 (6 * d) (clm_big J c2)
  have a4 := stage hl J d h4 (f0 := f t0 x0)
    (b := (5 / 3 : ℝ) • fderiv ℝ (fun p : ℝ × F => f p.1 p.2) (t0, x0) (1, f t0 x0) + (20 / 3 * d) • J (f t0 x0)) (by
      refine ((d4.add e1).add e2).congr_left (fun h => ?_)
      have : x0 + h • ((1 / 4 : ℝ) • k1 h + (3 / 4 : ℝ) • k2 h) + (2 / 3 * h) • k3 h =
        x0 + h • ((1 / 4 : ℝ) • k1 h + (3 / 4 : ℝ) • k2 h + (2 / 3 : ℝ) • k3 h) := by module
      rw [this, map_sub, map_sub]
      module)
  have r1 := smul_big 1 (1 / 8) a1
  have r2 := smul_big 1 (5 / 8) a2
  have r3 := smul_big 1 (5 / 8) a3
  have r4 := smul_big 1 (1 / 8) a4
  refine ((r3.sub r2).add (r1.sub r4)).congr_left (fun h => ?_)
  module

/-- With a factorization for the step `rho*h` in place of that for `h` the local error of SW2(4) is of second order
only: its leading term is that of a method of first order. -/
theorem sw_stale {l : Filter ℝ} (hl : l ≤ 𝓝 0) {f : ℝ → F → F} {t0 : ℝ} {x0 : F}
    (hf : ContDiffAt ℝ 2 (fun p : ℝ × F => f p.1 p.2) (t0, x0)) {y : ℝ → F} (h0 : y t0 = x0)
    (hy : ∀ᶠ t in 𝓝 t0, HasDerivAt y (f t (y t)) t) {J : F →L[ℝ] F} {d rho : ℝ} {k1 k2 : ℝ → F}
    (h1 : ∀ᶠ h in l, k1 h - (h * (rho * d)) • J (k1 h) = f t0 x0)
    (h2 : ∀ᶠ h in l, k2 h - (h * (rho * d)) • J (k2 h) =
      f (t0 + 2 / 3 * h) (x0 + (2 / 3 * h) • k1 h) - (4 / 3 * h * d) • J (k1 h)) :
    (fun h => x0 + h • ((1 / 4 : ℝ) • k1 h + (3 / 4 : ℝ) • k2 h) - y (t0 + h)
      - (h ^ 2 * ((rho - 1) * d)) • J (f t0 x0)) =O[l] (fun h : ℝ => h ^ 3) := by
  have a1 : (fun h => k1 h - f t0 x0 - h • ((0 : F) + (rho * d) • J (f t0 x0))) =O[l] (fun h : ℝ => h ^ 2) :=
    stage hl J _ h1 (by simpa using isBigO_zero (E' := F) (fun h : ℝ => h ^ 2) l)
  rw [zero_add] at a1
  have b1 := first_order hl a1
  have b2 : (fun h => (2 / 3 : ℝ) • k1 h - (2 / 3 : ℝ) • f t0 x0) =O[l] (fun h : ℝ => h ^ 1) := by
    have := b1.const_smul_left (2 / 3 : ℝ)
    refine this.congr_left (fun h => ?_)
    simp [smul_sub]
  have b3 := rhs_expand hl hf (2 / 3) b2
  have b4 := smul_big 1 (4 / 3 * d) (clm_big J b1)
  have hD : fderiv ℝ (fun p : ℝ × F => f p.1 p.2) (t0, x0) (2 / 3, (2 / 3 : ℝ) • f t0 x0)
      = (2 / 3 : ℝ) • fderiv ℝ (fun p : ℝ × F => f p.1 p.2) (t0, x0) (1, f t0 x0) := by
    rw [← map_smul]
    simp
  rw [hD] at b3
  have a2 := stage hl J (rho * d) h2 (f0 := f t0 x0)
    (b := (2 / 3 : ℝ) • fderiv ℝ (fun p : ℝ × F => f p.1 p.2) (t0, x0) (1, f t0 x0) - (4 / 3 * d) • J (f t0 x0)) (by
      refine (b3.sub b4).congr_left (fun h => ?_)
      rw [map_sub, smul_smul h, mul_comm h]
      module)
  have r1 := smul_big 1 (1 / 4) a1
  have r2 := smul_big 1 (3 / 4) a2
  have r3 := (solution_expand hf h0 hy).mono hl
  refine ((r1.add r2).sub r3).congr_left (fun h => ?_)
  module

end Verif.Ros
