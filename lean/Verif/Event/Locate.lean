import Mathlib.Analysis.Calculus.ContDiff.RCLike
import Mathlib.Analysis.Calculus.ContDiff.Comp
import Mathlib.Analysis.Calculus.ContDiff.Deriv
import Mathlib.Analysis.Calculus.ContDiff.Operations
import Mathlib.Analysis.Calculus.MeanValue
import Mathlib.Topology.MetricSpace.Thickening
import Mathlib.Topology.Order.IntermediateValue
import Mathlib.Tactic.Linarith
import Mathlib.Tactic.Positivity
import Mathlib.Tactic.FieldSimp

/-! # Zeros found by linear interpolation, in analysis

No part of the model: facts about smooth functions used for C134. -/

namespace Verif.Event

open Filter Topology Set Metric

section
variable {F : Type} [NormedAddCommGroup F] [NormedSpace ℝ F]

/-- The first-order Taylor formula with a common constant near a point -/
theorem taylor_near {f : ℝ → F} {a : ℝ} (hf : ContDiffAt ℝ 2 f a) :
    ∃ M : ℝ, 0 ≤ M ∧ ∃ δ > (0 : ℝ), ∀ s T, |s - a| < δ → |T - a| < δ →
      ‖f s - f T - (s - T) • deriv f T‖ ≤ M * (s - T) ^ 2 := by
  have hd : ContDiffAt ℝ 1 (deriv f) a := hf.derivWithin (by norm_num)
  obtain ⟨L, u, hu, hL⟩ := hd.exists_lipschitzOnWith
  have hdiff : ∀ᶠ s in 𝓝 a, DifferentiableAt ℝ f s := by
    filter_upwards [hf.eventually (by simp)] with s hs
    exact hs.differentiableAt (by simp)
  obtain ⟨δ, hδ, hball⟩ := Metric.mem_nhds_iff.1 (inter_mem hu hdiff)
  refine ⟨L, L.2, δ, hδ, fun s T hs hT => ?_⟩
  have hseg : ∀ r ∈ uIcc T s, r ∈ ball a δ := by
    intro r hr
    have hc : Convex ℝ (ball a δ) := convex_ball a δ
    have := hc.ordConnected.uIcc_subset (x := T) (y := s) (by simpa [Real.dist_eq] using hT)
      (by simpa [Real.dist_eq] using hs)
    exact this hr
  have key := (convex_uIcc T s).norm_image_sub_le_of_norm_hasDerivWithin_le
    (f := fun r => f r - r • deriv f T) (f' := fun r => deriv f r - deriv f T) (C := L * |s - T|)
    (x := T) (y := s) (fun r hr => by
      have h1 := (hball (hseg r hr)).2
      have h2 := (h1.hasDerivAt.sub ((hasDerivAt_id r).smul_const (deriv f T)))
      rw [one_smul] at h2
      exact h2.hasDerivWithinAt)
    (fun r hr => by
      have h1 := hL.dist_le_mul r (hball (hseg r hr)).1 T (hball (hseg T left_mem_uIcc)).1
      rw [dist_eq_norm] at h1
      refine h1.trans (mul_le_mul_of_nonneg_left ?_ L.2)
      rw [Real.dist_eq]
      exact abs_sub_left_of_mem_uIcc hr)
    left_mem_uIcc right_mem_uIcc
  have e : f s - f T - (s - T) • deriv f T = (f s - s • deriv f T) - (f T - T • deriv f T) := by
    rw [sub_smul]; abel
  rw [e]
  refine key.trans (le_of_eq ?_)
  rw [Real.norm_eq_abs, mul_assoc, abs_mul_abs_self]
  ring

theorem between {t1 t2 θ a δ : ℝ} (h1 : |t1 - a| < δ) (h2 : |t2 - a| < δ) (h0 : 0 ≤ θ) (h1' : θ ≤ 1) :
    |t1 + θ * (t2 - t1) - a| < δ := by
  rw [abs_lt] at h1 h2 ⊢
  have e : t1 + θ * (t2 - t1) - a = (1 - θ) * (t1 - a) + θ * (t2 - a) := by ring
  rw [e]
  rcases h0.eq_or_lt with h | h
  · rw [← h]; simpa using h1
  · have m1 := mul_lt_mul_of_pos_left h2.1 h
    have m2 := mul_lt_mul_of_pos_left h2.2 h
    have m3 := mul_le_mul_of_nonneg_left h1.1.le (by linarith : 0 ≤ 1 - θ)
    have m4 := mul_le_mul_of_nonneg_left h1.2.le (by linarith : 0 ≤ 1 - θ)
    constructor <;> linarith

/-- Linear interpolation between two points of a smooth curve -/
theorem interp_near {f : ℝ → F} {a : ℝ} (hf : ContDiffAt ℝ 2 f a) :
    ∃ M : ℝ, 0 ≤ M ∧ ∃ δ > (0 : ℝ), ∀ t1 t2 θ : ℝ, |t1 - a| < δ → |t2 - a| < δ → 0 ≤ θ → θ ≤ 1 →
      ‖(1 - θ) • f t1 + θ • f t2 - f (t1 + θ * (t2 - t1))‖ ≤ M * (t2 - t1) ^ 2 := by
  obtain ⟨M, hM, δ, hδ, key⟩ := taylor_near hf
  refine ⟨M, hM, δ, hδ, fun t1 t2 θ h1 h2 h0 h1' => ?_⟩
  have hT : |t1 + θ * (t2 - t1) - a| < δ := by
    exact between h1 h2 h0 h1'
  have k1 := key t1 _ h1 hT
  have k2 := key t2 _ h2 hT
  generalize hD : deriv f (t1 + θ * (t2 - t1)) = D at k1 k2
  generalize hv : f (t1 + θ * (t2 - t1)) = v at k1 k2 ⊢
  have e : (1 - θ) • f t1 + θ • f t2 - v
      = (1 - θ) • (f t1 - v - (t1 - (t1 + θ * (t2 - t1))) • D)
        + θ • (f t2 - v - (t2 - (t1 + θ * (t2 - t1))) • D) := by
    module
  rw [e]
  refine (norm_add_le _ _).trans ?_
  rw [norm_smul, norm_smul, Real.norm_of_nonneg (by linarith : 0 ≤ 1 - θ), Real.norm_of_nonneg h0]
  have m1 := mul_le_mul_of_nonneg_left k1 (by linarith : 0 ≤ 1 - θ)
  have m2 := mul_le_mul_of_nonneg_left k2 h0
  have e2 : (1 - θ) * (M * (t1 - (t1 + θ * (t2 - t1))) ^ 2) + θ * (M * (t2 - (t1 + θ * (t2 - t1))) ^ 2)
      = θ * (1 - θ) * (M * (t2 - t1) ^ 2) := by ring
  have h3 : θ * (1 - θ) ≤ 1 := by nlinarith
  have h4 : 0 ≤ M * (t2 - t1) ^ 2 := by positivity
  nlinarith

omit [NormedSpace ℝ F] in
/-- A property of points near a compact piece of a curve holds within one distance of it. -/
theorem tube {P : ℝ × F → Prop} {y : ℝ → F} {a c : ℝ} (hy : ContinuousOn y (Icc a c))
    (h : ∀ t ∈ Icc a c, ∀ᶠ z in 𝓝 (t, y t), P z) :
    ∃ ρ > (0 : ℝ), ∀ t ∈ Icc a c, ∀ t' x, |t' - t| < ρ → ‖x - y t‖ < ρ → P (t', x) := by
  have hK : IsCompact ((fun t => (t, y t)) '' Icc a c) :=
    isCompact_Icc.image_of_continuousOn (continuousOn_id.prodMk hy)
  have hev : {z | P z} ∈ 𝓝ˢ ((fun t => (t, y t)) '' Icc a c) := by
    rw [mem_nhdsSet_iff_forall]
    rintro _ ⟨t, ht, rfl⟩
    exact h t ht
  obtain ⟨ρ, hρ, hsub⟩ := (hasBasis_nhdsSet_thickening hK).mem_iff.1 hev
  refine ⟨ρ, hρ, fun t ht t' x h1 h2 => hsub ?_⟩
  rw [mem_thickening_iff]
  refine ⟨(t, y t), ⟨t, ht, rfl⟩, ?_⟩
  rw [Prod.dist_eq, max_lt_iff, Real.dist_eq, dist_eq_norm]
  exact ⟨h1, h2⟩

/-- A continuous function without zeros keeps its sign. -/
theorem keeps_sign {G : ℝ → ℝ} {a c : ℝ} (hG : ContinuousOn G (Icc a c)) (h0 : ∀ t ∈ Icc a c, G t ≠ 0) :
    ∀ t ∈ Icc a c, 0 < G a * G t := by
  intro t ht
  have ha : a ∈ Icc a c := ⟨le_rfl, ht.1.trans ht.2⟩
  by_contra hneg
  have hz : (0 : ℝ) ∈ uIcc (G a) (G t) := by
    rw [mem_uIcc]
    rcases lt_or_gt_of_ne (h0 a ha) with h | h
    · exact .inl ⟨h.le, by nlinarith⟩
    · exact .inr ⟨by nlinarith, h.le⟩
  have hsub : uIcc a t ⊆ Icc a c := by
    rw [uIcc_of_le ht.1]
    exact Icc_subset_Icc le_rfl ht.2
  obtain ⟨s, hs, hs0⟩ := intermediate_value_uIcc (hG.mono hsub) hz
  exact h0 s (hsub hs) hs0

set_option maxHeartbeats 800000 in
/-- Where the linear interpolant of a function along an approximate curve is zero, near a simple zero of the function along the
curve; and the signs of the function beside the zero -/
theorem locate {g : ℝ × F → ℝ} {y : ℝ → F} {a : ℝ} (hg : ContDiffAt ℝ 2 g (a, y a)) (hy : ContDiffAt ℝ 2 y a)
    (h0 : g (a, y a) = 0) {d : ℝ} (hd : HasDerivAt (fun t => g (t, y t)) d a) (hne : d ≠ 0) :
    ∃ K : ℝ, 0 ≤ K ∧ ∃ δ > (0 : ℝ),
      (∀ t1 t2 x1 x2 ε θ, |t1 - a| < δ → |t2 - a| < δ → ε < δ → ‖x1 - y t1‖ ≤ ε → ‖x2 - y t2‖ ≤ ε → 0 ≤ θ → θ ≤ 1 →
        (1 - θ) * g (t1, x1) + θ * g (t2, x2) = 0 →
        |t1 + θ * (t2 - t1) - a| ≤ K * (ε + (t2 - t1) ^ 2) ∧
        ‖(1 - θ) • x1 + θ • x2 - y a‖ ≤ K * (ε + (t2 - t1) ^ 2)) ∧
      (∀ t x ε, |t - a| < δ → ε < δ → ‖x - y t‖ ≤ ε → K * ε < |t - a| → 0 < d * (t - a) * g (t, x)) := by
  have hcurve : ContDiffAt ℝ 2 (fun t => (t, y t)) a := contDiffAt_id.prodMk hy
  have hG : ContDiffAt ℝ 2 (fun t => g (t, y t)) a := ContDiffAt.comp a hg hcurve
  obtain ⟨M, hM, δ1, hδ1, k1⟩ := interp_near hG
  obtain ⟨M', hM', δ2, hδ2, k2⟩ := interp_near hy
  obtain ⟨L, u, hu, hL⟩ := (hg.of_le (by norm_num)).exists_lipschitzOnWith
  obtain ⟨L', u', hu', hL'⟩ := (hy.of_le (by norm_num)).exists_lipschitzOnWith
  obtain ⟨δ3, hδ3, hb3⟩ := Metric.mem_nhds_iff.1 hu
  obtain ⟨δ4, hδ4, hb4⟩ := Metric.mem_nhds_iff.1 hu'
  obtain ⟨δ5, hδ5, hb5⟩ := Metric.continuousAt_iff.1 hy.continuousAt (δ3 / 2) (by linarith)
  have hdp : 0 < |d| := abs_pos.2 hne
  -- growth beside the zero
  have hgrow : ∀ᶠ t in 𝓝 a, |g (t, y t) - d * (t - a)| ≤ |d| / 2 * |t - a| := by
    have := (hasDerivAt_iff_isLittleO.1 hd).def (half_pos hdp)
    filter_upwards [this] with t ht
    simp only [h0, sub_zero, smul_eq_mul, Real.norm_eq_abs] at ht
    rwa [mul_comm d]
  obtain ⟨δ6, hδ6, hb6⟩ := Metric.mem_nhds_iff.1 hgrow
  have grow : ∀ t, |t - a| < δ6 → |g (t, y t) - d * (t - a)| ≤ |d| / 2 * |t - a| :=
    fun t ht => hb6 (by simpa [Real.dist_eq] using ht)
  have low : ∀ t, |t - a| < δ6 → |d| / 2 * |t - a| ≤ |g (t, y t)| := fun t ht => by
    have h1 := grow t ht
    have h2 := abs_sub_abs_le_abs_sub (d * (t - a)) (g (t, y t))
    rw [abs_mul, abs_sub_comm (d * (t - a))] at h2
    linarith
  set δ := min (min δ1 δ2) (min (min (δ3 / 2) δ4) (min δ5 δ6)) with hδdef
  have hδ : 0 < δ := by simp only [hδdef, lt_min_iff]; refine ⟨⟨?_, ?_⟩, ⟨?_, ?_⟩, ?_, ?_⟩ <;> linarith
  have le1 : δ ≤ δ1 := by simp [hδdef]
  have le2 : δ ≤ δ2 := by simp [hδdef]
  have le3 : δ ≤ δ3 / 2 := by simp [hδdef]
  have le4 : δ ≤ δ4 := by simp [hδdef]
  have le5 : δ ≤ δ5 := by simp [hδdef]
  have le6 : δ ≤ δ6 := by simp [hδdef]
  have lip : ∀ t x ε, |t - a| < δ → ε < δ → ‖x - y t‖ ≤ ε → |g (t, x) - g (t, y t)| ≤ L * ε := by
    intro t x ε ht hε hx
    have hyt : dist (y t) (y a) < δ3 / 2 := hb5 (by rw [Real.dist_eq]; linarith)
    have hxa : dist x (y a) < δ3 := by
      have := dist_triangle x (y t) (y a)
      rw [dist_eq_norm x (y t)] at this
      linarith
    have m1 : (t, x) ∈ u := hb3 (by
      rw [mem_ball, Prod.dist_eq, max_lt_iff, Real.dist_eq]
      exact ⟨by linarith, hxa⟩)
    have m2 : (t, y t) ∈ u := hb3 (by
      rw [mem_ball, Prod.dist_eq, max_lt_iff, Real.dist_eq]
      exact ⟨by linarith, by linarith⟩)
    have := hL.dist_le_mul _ m1 _ m2
    rw [Real.dist_eq, Prod.dist_eq, dist_self, dist_eq_norm, max_eq_right (norm_nonneg _)] at this
    exact this.trans (mul_le_mul_of_nonneg_left hx L.2)
  have hL0 : (0 : ℝ) ≤ L := L.2
  have hL0' : (0 : ℝ) ≤ L' := L'.2
  -- the constant
  set A : ℝ := 2 * (L + M) / |d| with hA
  have hA0 : 0 ≤ A := by positivity
  have hAd : |d| / 2 * A = L + M := by rw [hA]; field_simp
  refine ⟨(1 + L') * A + 1 + M', by positivity, δ, hδ, ?_, ?_⟩
  · intro t1 t2 x1 x2 ε θ h1 h2 hε hx1 hx2 hθ hθ' hz
    have hε0 : 0 ≤ ε := (norm_nonneg _).trans hx1
    set T := t1 + θ * (t2 - t1) with hT
    have hTδ : |T - a| < δ := by
      exact between h1 h2 hθ hθ'
    have q1 := k1 t1 t2 θ (by linarith) (by linarith) hθ hθ'
    have q2 := k2 t1 t2 θ (by linarith) (by linarith) hθ hθ'
    rw [← hT] at q1 q2
    have l1 := lip t1 x1 ε h1 hε hx1
    have l2 := lip t2 x2 ε h2 hε hx2
    have hsq : 0 ≤ (t2 - t1) ^ 2 := sq_nonneg _
    have gT : |g (T, y T)| ≤ L * ε + M * (t2 - t1) ^ 2 := by
      simp only [smul_eq_mul, Real.norm_eq_abs] at q1
      rw [abs_le] at q1 l1 l2 ⊢
      obtain ⟨q1a, q1b⟩ := q1
      obtain ⟨l1a, l1b⟩ := l1
      obtain ⟨l2a, l2b⟩ := l2
      have s1 := mul_le_mul_of_nonneg_left l1a (by linarith : 0 ≤ 1 - θ)
      have s2 := mul_le_mul_of_nonneg_left l1b (by linarith : 0 ≤ 1 - θ)
      have s3 := mul_le_mul_of_nonneg_left l2a hθ
      have s4 := mul_le_mul_of_nonneg_left l2b hθ
      constructor <;> linarith
    have hlow := low T (by linarith)
    have hTa : |T - a| ≤ A * (ε + (t2 - t1) ^ 2) := by
      have h3 : |d| / 2 * |T - a| ≤ |d| / 2 * (A * (ε + (t2 - t1) ^ 2)) := by
        rw [← mul_assoc, hAd]
        nlinarith [mul_nonneg hM hε0, mul_nonneg hL0 hsq]
      exact le_of_mul_le_mul_left h3 (half_pos hdp)
    have hB : 0 ≤ ε + (t2 - t1) ^ 2 := by positivity
    have hbig : A ≤ (1 + L') * A + 1 + M' := by nlinarith [mul_nonneg hL0' hA0]
    refine ⟨hTa.trans (mul_le_mul_of_nonneg_right hbig hB), ?_⟩
    have hya : ‖y T - y a‖ ≤ L' * |T - a| := by
      have := hL'.dist_le_mul T (hb4 (by rw [mem_ball, Real.dist_eq]; linarith)) a (hb4 (mem_ball_self hδ4))
      rwa [dist_eq_norm, Real.dist_eq] at this
    have e : (1 - θ) • x1 + θ • x2 - y a = ((1 - θ) • (x1 - y t1) + θ • (x2 - y t2))
        + ((1 - θ) • y t1 + θ • y t2 - y T) + (y T - y a) := by module
    rw [e]
    have n1 : ‖(1 - θ) • (x1 - y t1) + θ • (x2 - y t2)‖ ≤ ε := by
      refine (norm_add_le _ _).trans ?_
      rw [norm_smul, norm_smul, Real.norm_of_nonneg (by linarith : 0 ≤ 1 - θ), Real.norm_of_nonneg hθ]
      have s1 := mul_le_mul_of_nonneg_left hx1 (by linarith : 0 ≤ 1 - θ)
      have s2 := mul_le_mul_of_nonneg_left hx2 hθ
      linarith
    have n2 := norm_add₃_le (a := (1 - θ) • (x1 - y t1) + θ • (x2 - y t2))
      (b := (1 - θ) • y t1 + θ • y t2 - y T) (c := y T - y a)
    have n3 : L' * |T - a| ≤ L' * (A * (ε + (t2 - t1) ^ 2)) := mul_le_mul_of_nonneg_left hTa hL0'
    have n4 : 0 ≤ A * (ε + (t2 - t1) ^ 2) := by positivity
    have n5 := mul_nonneg hM' hε0
    have n6 : ((1 + L') * A + 1 + M') * (ε + (t2 - t1) ^ 2) = A * (ε + (t2 - t1) ^ 2) + L' * (A * (ε + (t2 - t1) ^ 2))
        + ε + (t2 - t1) ^ 2 + M' * ε + M' * (t2 - t1) ^ 2 := by ring
    rw [n6]
    linarith
  · intro t x ε ht hε hx hK
    have hε0 : 0 ≤ ε := (norm_nonneg _).trans hx
    have l := lip t x ε ht hε hx
    have g1 := grow t (by linarith)
    have h3 : L * ε < |d| / 2 * |t - a| := by
      have hAK : A * ε ≤ ((1 + L') * A + 1 + M') * ε :=
        mul_le_mul_of_nonneg_right (by nlinarith [mul_nonneg hL0' hA0]) hε0
      have h4 : |d| / 2 * (A * ε) < |d| / 2 * |t - a| := mul_lt_mul_of_pos_left (by linarith) (half_pos hdp)
      rw [← mul_assoc, hAd] at h4
      have h6 := mul_nonneg hM hε0
      rw [add_mul] at h4
      linarith
    have h5 : |g (t, x) - d * (t - a)| < |d * (t - a)| := by
      rw [abs_mul]
      have := abs_add_le (g (t, x) - g (t, y t)) (g (t, y t) - d * (t - a))
      rw [sub_add_sub_cancel] at this
      linarith
    generalize d * (t - a) = w at h5 ⊢
    rcases le_total 0 w with hw | hw
    · rw [abs_of_nonneg hw, abs_lt] at h5
      have h6 : 0 < g (t, x) := by linarith
      have h7 : 0 < w := by
        rcases hw.lt_or_eq with h | h
        · exact h
        · subst h; linarith [h5.1, h5.2]
      positivity
    · rw [abs_of_nonpos hw, abs_lt] at h5
      have h6 : g (t, x) < 0 := by linarith
      have h7 : w < 0 := by
        rcases hw.lt_or_eq with h | h
        · exact h
        · subst h; linarith [h5.1, h5.2]
      exact mul_pos_of_neg_of_neg h7 h6

end

end Verif.Event
