import Verif.Event.Locate
import Verif.RK.Converge
import Verif.Round.Perturb

/-! # Errors carried through events, in analysis

No part of the model: facts about one-step methods and smooth functions used for C135. -/

namespace Verif.Event

open Verif.RK Filter Topology Set Metric

section
variable {E : Type} [NormedAddCommGroup E] [NormedSpace ℝ E] [CompleteSpace E]

/-- Steps of one size of a coded method, begun anywhere near a solution -/
theorem grid_from {co : Coefficients ℚ} {s ix p : Nat} (hr : RowCheck co s = true)
    (hc : OrderCheck co s ix p = true) (hp : 1 ≤ p) (f : ℝ → E → E) (c b : ℝ) (y : ℝ → E)
    (hf : ∀ t ∈ Icc c b, ContDiffAt ℝ (p + 1 : Nat) (fun z : ℝ × E => f z.1 z.2) (t, y t))
    (hy : ∀ t ∈ Icc c b, ∀ᶠ s in 𝓝 t, HasDerivAt y (f s (y s)) s) :
    ∃ C : ℝ, 0 ≤ C ∧ ∃ r > (0 : ℝ), ∀ h ε : ℝ, 0 < h → h ≤ r → 0 ≤ ε → ε ≤ r → ∀ (τ : ℝ) (xs : Nat → E), c ≤ τ →
      ‖xs 0 - y τ‖ ≤ ε → (∀ k : Nat, xs (k + 1) = ((co.cast ℝ).tableau s).output f (τ + k * h) h (xs k) ix) →
      ∀ k : Nat, τ + k * h ≤ b → ‖xs k - y (τ + k * h)‖ ≤ C * (h ^ p + ε) := by
  set Ψ : ℝ → E → ℝ → E := fun t x h => ∑ i ∈ Finset.range s,
    ((co.cast ℝ).tableau s).b ix i • ((co.cast ℝ).tableau s).stage f t h x i with hΨdef
  have hΨ : ∀ t ∈ Icc c b, ContDiffAt ℝ (p + 1 : Nat) (fun z : ℝ × E × ℝ => Ψ z.1 z.2.1 z.2.2) (t, y t, 0) :=
    fun t ht => incr_contDiffAt ((co.cast ℝ).tableau s) (hf t ht) ix
  have hyd : ∀ t ∈ Icc c b, ContDiffAt ℝ (p + 1 : Nat) y t := fun t ht => solution_contDiffAt (hf t ht) (hy t ht)
  obtain ⟨M, hM, r₁, hr₁, hloc⟩ := local_uniform p Ψ y c b hΨ hyd
    (fun t ht => coded_local hr hc hp f t y (hf t ht) (hy t ht))
  obtain ⟨L, hL, B₂, -, r₂, hr₂, hlip⟩ := Round.tube (fun z : ℝ × E × ℝ => Ψ z.1 z.2.1 z.2.2) (fun t => (t, y t, (0 : ℝ))) c b
    (fun t ht => (hΨ t ht).of_le (by simp)) (fun t ht => continuousAt_id.prodMk ((hyd t ht).continuousAt.prodMk continuousAt_const))
  set D := |b - c| with hD
  have hD0 : 0 ≤ D := by positivity
  set C := Real.exp (L * D) * (1 + D * M) with hC
  have hC0 : 0 ≤ C := by positivity
  refine ⟨C, hC0, min (min (min r₁ r₂) 1) (r₂ / (2 * (C + 1))), by positivity,
    fun h ε hh hle hε hεle τ xs hcτ hx0 hxs N hN => ?_⟩
  simp only [le_min_iff] at hle hεle
  obtain ⟨⟨⟨g1, g2⟩, g3⟩, g4⟩ := hle
  have hpow : h ^ p ≤ h := by
    calc h ^ p ≤ h ^ 1 := pow_le_pow_of_le_one hh.le g3 hp
      _ = h := pow_one h
  have hp0 : 0 ≤ h ^ p := by positivity
  have hgrid : ∀ k ≤ N, τ + k * h ∈ Icc c b := fun k hk => by
    have h1 : (k : ℝ) * h ≤ N * h := mul_le_mul_of_nonneg_right (by exact_mod_cast hk) hh.le
    have h2 : 0 ≤ (k : ℝ) * h := by positivity
    exact ⟨by linarith, by linarith⟩
  have hkD : ∀ k ≤ N, (k : ℝ) * h ≤ D := fun k hk => by
    have := hgrid k hk
    have h2 := le_abs_self (b - c)
    linarith [this.2]
  have hbound : ∀ k ≤ N, Real.exp (L * (k * h)) * (ε + k * h * (M * h ^ p)) ≤ C * (h ^ p + ε) := by
    intro k hk
    have h1 := hkD k hk
    have h0 : 0 ≤ (k : ℝ) * h := by positivity
    have h2 : Real.exp (L * (k * h)) ≤ Real.exp (L * D) := Real.exp_le_exp.2 (mul_le_mul_of_nonneg_left h1 hL)
    have h3 : ε + k * h * (M * h ^ p) ≤ (1 + D * M) * (h ^ p + ε) := by
      have a1 := mul_le_mul_of_nonneg_right h1 (mul_nonneg hM hp0)
      have a2 : 0 ≤ D * M * ε := by positivity
      have e : (1 + D * M) * (h ^ p + ε) = h ^ p + ε + D * (M * h ^ p) + D * M * ε := by ring
      rw [e]; linarith
    calc _ ≤ Real.exp (L * D) * ((1 + D * M) * (h ^ p + ε)) := mul_le_mul h2 h3 (by positivity) (Real.exp_pos _).le
      _ = C * (h ^ p + ε) := by rw [hC]; ring
  have hsmall : C * (h ^ p + ε) ≤ r₂ := by
    have h1 : h ^ p + ε ≤ r₂ / (C + 1) := by
      have e : r₂ / (2 * (C + 1)) + r₂ / (2 * (C + 1)) = r₂ / (C + 1) := by field_simp; norm_num
      linarith [hεle.2]
    calc C * (h ^ p + ε) ≤ C * (r₂ / (C + 1)) := mul_le_mul_of_nonneg_left h1 hC0
      _ = r₂ * (C / (C + 1)) := by ring
      _ ≤ r₂ * 1 := by
          refine mul_le_mul_of_nonneg_left ?_ hr₂.le
          rw [div_le_one (by linarith)]
          linarith
      _ = r₂ := mul_one _
  have := Round.growth_perturbed (r := r₂) hL hh.le hε (mul_nonneg hM hp0) N (fun k => ‖xs k - y (τ + k * h)‖)
    (by simpa using hx0) (fun k hk => (hbound k hk).trans hsmall) (fun k hk hek => by
      have hti := hgrid k hk.le
      set t := τ + (k : ℝ) * h with ht
      have et : τ + ((k + 1 : Nat) : ℝ) * h = t + h := by rw [ht]; push_cast; ring
      have ex : xs (k + 1) = xs k + h • Ψ t (xs k) h := by rw [hxs]; rfl
      rw [et, ex]
      have e : xs k + h • Ψ t (xs k) h - y (t + h) = (xs k - y t) + h • (Ψ t (xs k) h - Ψ t (y t) h)
          + (y t + h • Ψ t (y t) h - y (t + h)) := by module
      have n1 := (hlip t hti (t, xs k, h) (t, y t, h)
        (by
          rw [Prod.mk_sub_mk, Prod.mk_sub_mk, sub_self, sub_zero, Prod.norm_mk, Prod.norm_mk, norm_zero, Real.norm_of_nonneg hh.le]
          exact max_le hr₂.le (max_le hek g2))
        (by
          rw [Prod.mk_sub_mk, Prod.mk_sub_mk, sub_self, sub_self, sub_zero, Prod.norm_mk, Prod.norm_mk, norm_zero, norm_zero,
            Real.norm_of_nonneg hh.le]
          exact max_le hr₂.le (max_le hr₂.le g2))).1
      rw [Prod.mk_sub_mk, Prod.mk_sub_mk, sub_self, sub_self, Prod.norm_mk, Prod.norm_mk, norm_zero,
        max_eq_left (norm_nonneg _), max_eq_right (norm_nonneg _)] at n1
      have n4 := hloc t hti h hh.le g1
      have n5 : ‖h • (Ψ t (xs k) h - Ψ t (y t) h)‖ ≤ h * (L * ‖xs k - y t‖) := by
        rw [norm_smul, Real.norm_of_nonneg hh.le]
        exact mul_le_mul_of_nonneg_left n1 hh.le
      rw [e]
      refine (norm_add₃_le).trans ?_
      have e2 : (1 + h * L) * ‖xs k - y t‖ + h * (M * h ^ p) = ‖xs k - y t‖ + h * (L * ‖xs k - y t‖) + M * h ^ (p + 1) := by ring
      rw [e2]
      linarith)
  exact (this N le_rfl).trans (hbound N le_rfl)

end

section
variable {F : Type} [NormedAddCommGroup F] [NormedSpace ℝ F]

/-- The function `g` is, along the curve `y`, on the side `σ` from `t₀` to `c`; at `t₀` it may be zero if it leaves zero there
towards this side. -/
structure OnSide (g : ℝ × F → ℝ) (y : ℝ → F) (t₀ c σ : ℝ) : Prop where
  cont : ∀ t ∈ Icc t₀ c, ContinuousAt g (t, y t)
  pos : ∀ t ∈ Icc t₀ c, t ≠ t₀ → 0 < σ * g (t, y t)
  start : 0 < σ * g (t₀, y t₀) ∨
    (g (t₀, y t₀) = 0 ∧ ContDiffAt ℝ 2 g (t₀, y t₀) ∧ 0 < σ * deriv (fun t => g (t, y t)) t₀)

/-- Then it is on this side near the curve, too, but for the very beginning. -/
theorem OnSide.near {g : ℝ × F → ℝ} {y : ℝ → F} {t₀ c σ : ℝ} (h : OnSide g y t₀ c σ) (hc : t₀ < c)
    (hy : ∀ t ∈ Icc t₀ c, ContinuousAt y t) (hy2 : ContDiffAt ℝ 2 y t₀) :
    ∃ K : ℝ, 0 ≤ K ∧ (0 < σ * g (t₀, y t₀) → K = 0) ∧
      ∃ ρ > (0 : ℝ), ∀ t x ε, t₀ < t → t ≤ c + ρ → ε < ρ → ‖x - y t‖ ≤ ε → K * ε < t - t₀ → 0 < σ * g (t, x) := by
  have tubeFrom : ∀ a' ∈ Icc t₀ c, (∀ t ∈ Icc a' c, 0 < σ * g (t, y t)) →
      ∃ ρ > (0 : ℝ), ∀ t x ε, a' ≤ t → t ≤ c + ρ → ε < ρ → ‖x - y t‖ ≤ ε → 0 < σ * g (t, x) := by
    intro a' ha' hpos
    obtain ⟨ρ1, hρ1, tb⟩ := tube (P := fun z => 0 < σ * g z) (y := y) (a := a') (c := c)
      (fun t ht => (hy t ⟨ha'.1.trans ht.1, ht.2⟩).continuousWithinAt) (fun t ht => by
        have := (continuousAt_const (y := σ)).mul (h.cont t ⟨ha'.1.trans ht.1, ht.2⟩)
        exact this.eventually (lt_mem_nhds (hpos t ht)))
    obtain ⟨δ, hδ, nr⟩ := Metric.continuousAt_iff.1 (hy c ⟨hc.le, le_rfl⟩) (ρ1 / 2) (by linarith)
    refine ⟨min (min (δ / 2) (ρ1 / 2)) 1, by positivity, fun t x ε h1 h2 hε hx => ?_⟩
    have m1 : min (min (δ / 2) (ρ1 / 2)) 1 ≤ δ / 2 := (min_le_left _ _).trans (min_le_left _ _)
    have m2 : min (min (δ / 2) (ρ1 / 2)) 1 ≤ ρ1 / 2 := (min_le_left _ _).trans (min_le_right _ _)
    by_cases htc : t ≤ c
    · exact tb t ⟨h1, htc⟩ t x (by simpa using hρ1) (by linarith)
    · refine tb c ⟨ha'.2, le_rfl⟩ t x (by rw [abs_lt]; constructor <;> linarith) ?_
      have h3 := nr (x := t) (by rw [Real.dist_eq, abs_lt]; constructor <;> linarith)
      rw [dist_eq_norm] at h3
      have h4 := norm_add_le (x - y t) (y t - y c)
      rw [sub_add_sub_cancel] at h4
      linarith
  rcases h.start with hs | ⟨hz, hg2, hd⟩
  · obtain ⟨ρ, hρ, tb⟩ := tubeFrom t₀ ⟨le_rfl, hc.le⟩ (fun t ht => by
      by_cases htt : t = t₀
      · rw [htt]; exact hs
      · exact h.pos t ht htt)
    exact ⟨0, le_rfl, fun _ => rfl, ρ, hρ, fun t x ε h1 h2 h3 h4 _ => tb t x ε h1.le h2 h3 h4⟩
  · have hne : deriv (fun t => g (t, y t)) t₀ ≠ 0 := fun h0 => by rw [h0, mul_zero] at hd; exact lt_irrefl _ hd
    obtain ⟨K, hK, δ, hδ, -, side⟩ := locate hg2 hy2 hz (differentiableAt_of_deriv_ne_zero hne).hasDerivAt hne
    set a' := min c (t₀ + δ / 2) with ha'
    have h1 : t₀ < a' := lt_min hc (by linarith)
    obtain ⟨ρ, hρ, tb⟩ := tubeFrom a' ⟨h1.le, min_le_left _ _⟩ (fun t ht => h.pos t ⟨h1.le.trans ht.1, ht.2⟩ (by
      intro h0; rw [h0] at ht; linarith [ht.1]))
    refine ⟨K, hK, fun h0 => by rw [hz, mul_zero] at h0; exact absurd h0 (lt_irrefl _), min ρ δ, lt_min hρ hδ, fun t x ε ht1 ht2 hε hx hKε => ?_⟩
    by_cases hta : a' ≤ t
    · exact tb t x ε hta (ht2.trans (by linarith [min_le_left ρ δ])) (hε.trans_le (min_le_left _ _)) hx
    · have h3 : t < t₀ + δ / 2 := (not_le.1 hta).trans_le (min_le_right _ _)
      have s2 := side t x ε (by rw [abs_lt]; constructor <;> linarith) (hε.trans_le (min_le_right _ _)) hx
        (by rw [abs_of_pos (by linarith)]; exact hKε)
      have h4 : 0 < t - t₀ := by linarith
      generalize deriv (fun t => g (t, y t)) t₀ = d at hd s2
      have h5 : 0 < d * g (t, x) := by
        have : d * (t - t₀) * g (t, x) = (t - t₀) * (d * g (t, x)) := by ring
        rw [this] at s2
        exact (mul_pos_iff_of_pos_left h4).1 s2
      have h6 : 0 < (σ * d) * (d * g (t, x)) := mul_pos hd h5
      have h7 : (σ * d) * (d * g (t, x)) = d ^ 2 * (σ * g (t, x)) := by ring
      rw [h7] at h6
      exact (mul_pos_iff_of_pos_left (by
        have : d ≠ 0 := fun h0 => by rw [h0] at hd; simp at hd
        positivity)).1 h6

/-- The same for several functions, with common constants -/
theorem onSide_near_all {n : Nat} {S : Nat → Prop} {g : Nat → ℝ × F → ℝ} {y : ℝ → F} {t₀ c : ℝ} {σ : Nat → ℝ}
    (h : ∀ j < n, S j → OnSide (g j) y t₀ c (σ j)) (hc : t₀ < c) (hy : ∀ t ∈ Icc t₀ c, ContinuousAt y t)
    (hy2 : ContDiffAt ℝ 2 y t₀) :
    ∃ K : ℝ, 0 ≤ K ∧ ((∀ j < n, S j → 0 < σ j * g j (t₀, y t₀)) → K = 0) ∧ ∃ ρ > (0 : ℝ), ∀ j < n, S j → ∀ t x ε, t₀ < t → t ≤ c + ρ → ε < ρ → ‖x - y t‖ ≤ ε → K * ε < t - t₀ →
      0 < σ j * g j (t, x) := by
  induction n with
  | zero => exact ⟨0, le_rfl, fun _ => rfl, 1, one_pos, fun j hj => by omega⟩
  | succ n ih =>
    obtain ⟨K, hK, hK0, ρ, hρ, ih⟩ := ih (fun j hj => h j (by omega))
    by_cases hS : S n
    · obtain ⟨K', hK', hK0', ρ', hρ', nr⟩ := (h n (by omega) hS).near hc hy hy2
      refine ⟨max K K', le_max_of_le_left hK, fun h => by
        rw [hK0 (fun j hj => h j (by omega)), hK0' (h n (by omega) hS), max_self], min ρ ρ', lt_min hρ hρ', fun j hj hSj t x ε h1 h2 h3 h4 h5 => ?_⟩
      have hε0 : 0 ≤ ε := (norm_nonneg _).trans h4
      have m1 : K * ε ≤ max K K' * ε := mul_le_mul_of_nonneg_right (le_max_left _ _) hε0
      have m2 : K' * ε ≤ max K K' * ε := mul_le_mul_of_nonneg_right (le_max_right _ _) hε0
      by_cases hjn : j = n
      · subst hjn
        exact nr t x ε h1 (by linarith [min_le_right ρ ρ']) (h3.trans_le (min_le_right _ _)) h4 (by linarith)
      · exact ih j (by omega) hSj t x ε h1 (by linarith [min_le_left ρ ρ']) (h3.trans_le (min_le_left _ _)) h4 (by linarith)
    · refine ⟨K, hK, fun h => hK0 (fun j hj => h j (by omega)), ρ, hρ, fun j hj hSj => ?_⟩
      by_cases hjn : j = n
      · subst hjn; exact absurd hSj hS
      · exact ih j (by omega) hSj

/-- A smooth map and a smooth curve through its value -/
theorem carried {R : ℝ × F → F} {y : ℝ → F} {a : ℝ} {x : F} (hR : ContDiffAt ℝ 1 R (a, x)) (hy : ContDiffAt ℝ 1 y a)
    (hRy : R (a, x) = y a) :
    ∃ L : ℝ, 0 ≤ L ∧ ∃ δ > (0 : ℝ), ∀ τ z ε, ε < δ → |τ - a| ≤ ε → ‖z - x‖ ≤ ε → ‖R (τ, z) - y τ‖ ≤ L * ε := by
  obtain ⟨L, u, hu, hL⟩ := hR.exists_lipschitzOnWith
  obtain ⟨L', u', hu', hL'⟩ := hy.exists_lipschitzOnWith
  obtain ⟨δ, hδ, hb⟩ := Metric.mem_nhds_iff.1 hu
  obtain ⟨δ', hδ', hb'⟩ := Metric.mem_nhds_iff.1 hu'
  refine ⟨L + L', add_nonneg L.2 L'.2, min δ δ', lt_min hδ hδ', fun τ z ε hε hτ hz => ?_⟩
  have h1 := hL.dist_le_mul (τ, z) (hb (by
    rw [mem_ball, Prod.dist_eq, max_lt_iff, Real.dist_eq, dist_eq_norm]
    exact ⟨hτ.trans_lt (hε.trans_le (min_le_left _ _)), hz.trans_lt (hε.trans_le (min_le_left _ _))⟩)) (a, x)
    (hb (mem_ball_self hδ))
  have h2 := hL'.dist_le_mul a (hb' (mem_ball_self hδ')) τ (hb' (by
    rw [mem_ball, Real.dist_eq]; exact hτ.trans_lt (hε.trans_le (min_le_right _ _))))
  rw [Prod.dist_eq, Real.dist_eq, dist_eq_norm, dist_eq_norm, hRy] at h1
  rw [dist_eq_norm, Real.dist_eq, abs_sub_comm] at h2
  have h3 := norm_add_le (R (τ, z) - y a) (y a - y τ)
  rw [sub_add_sub_cancel] at h3
  have h4 : (L : ℝ) * max |τ - a| ‖z - x‖ ≤ L * ε := mul_le_mul_of_nonneg_left (max_le hτ hz) L.2
  have h5 : (L' : ℝ) * |τ - a| ≤ L' * ε := mul_le_mul_of_nonneg_left hτ L'.2
  rw [add_mul]
  linarith

end

end Verif.Event
