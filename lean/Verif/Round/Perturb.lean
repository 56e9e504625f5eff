import Verif.RK.Uniform

/-! # One-step methods whose steps are perturbed -/

namespace Verif.Round

open Filter Topology Asymptotics Set

/-- Near a continuous curve a smooth function is bounded and Lipschitz, with the same constants along the curve. -/
theorem tube {X Y : Type} [NormedAddCommGroup X] [NormedSpace ℝ X] [NormedAddCommGroup Y] [NormedSpace ℝ Y] (G : X → Y)
    (γ : ℝ → X) (a b : ℝ) (hG : ∀ t ∈ Icc a b, ContDiffAt ℝ 1 G (γ t)) (hγ : ∀ t ∈ Icc a b, ContinuousAt γ t) :
    ∃ L, 0 ≤ L ∧ ∃ B, 0 ≤ B ∧ ∃ r > 0, ∀ t ∈ Icc a b, ∀ z w, ‖z - γ t‖ ≤ r → ‖w - γ t‖ ≤ r →
      ‖G z - G w‖ ≤ L * ‖z - w‖ ∧ ‖G z‖ ≤ B := by
  refine isCompact_Icc.induction_on (p := fun S => ∃ L, 0 ≤ L ∧ ∃ B, 0 ≤ B ∧ ∃ r > 0, ∀ t ∈ S, ∀ z w, ‖z - γ t‖ ≤ r →
    ‖w - γ t‖ ≤ r → ‖G z - G w‖ ≤ L * ‖z - w‖ ∧ ‖G z‖ ≤ B) ?_ ?_ ?_ ?_
  · exact ⟨0, le_refl _, 0, le_refl _, 1, one_pos, by simp⟩
  · rintro S S' hSS ⟨L, hL, B, hB, r, hr, h⟩
    exact ⟨L, hL, B, hB, r, hr, fun t ht => h t (hSS ht)⟩
  · rintro S S' ⟨L, hL, B, hB, r, hr, h⟩ ⟨L', hL', B', hB', r', hr', h'⟩
    refine ⟨max L L', le_max_of_le_left hL, max B B', le_max_of_le_left hB, min r r', by positivity, ?_⟩
    rintro t (ht | ht) z w hz hw
    · obtain ⟨h1, h2⟩ := h t ht z w (hz.trans (min_le_left _ _)) (hw.trans (min_le_left _ _))
      exact ⟨h1.trans (mul_le_mul_of_nonneg_right (le_max_left _ _) (norm_nonneg _)), h2.trans (le_max_left _ _)⟩
    · obtain ⟨h1, h2⟩ := h' t ht z w (hz.trans (min_le_right _ _)) (hw.trans (min_le_right _ _))
      exact ⟨h1.trans (mul_le_mul_of_nonneg_right (le_max_right _ _) (norm_nonneg _)), h2.trans (le_max_right _ _)⟩
  · intro t ht
    obtain ⟨L, W, hW, hlip⟩ := (hG t ht).exists_lipschitzOnWith
    obtain ⟨ε, hε, hball⟩ := Metric.mem_nhds_iff.1 hW
    have h1 : ∀ᶠ t' in 𝓝 t, dist (γ t') (γ t) < ε / 2 := (hγ t ht).eventually (Metric.ball_mem_nhds _ (by positivity))
    refine ⟨{t' | dist (γ t') (γ t) < ε / 2}, mem_nhdsWithin_of_mem_nhds h1, L, L.2, ‖G (γ t)‖ + L * ε,
      add_nonneg (norm_nonneg _) (mul_nonneg L.2 hε.le), ε / 3, by positivity, ?_⟩
    rintro t' c1 z w hz hw
    have hin : ∀ w, ‖w - γ t'‖ ≤ ε / 3 → dist w (γ t) < ε := by
      intro w hw
      have := dist_triangle w (γ t') (γ t)
      rw [dist_eq_norm w (γ t')] at this
      have c1 : dist (γ t') (γ t) < ε / 2 := c1
      linarith
    have k1 := hlip.dist_le_mul _ (hball (hin z hz)) _ (hball (hin w hw))
    have k2 := hlip.dist_le_mul _ (hball (hin z hz)) _ (hball (Metric.mem_ball_self hε))
    rw [dist_eq_norm, dist_eq_norm] at k1
    refine ⟨k1, ?_⟩
    have k3 : (L : ℝ) * dist z (γ t) ≤ L * ε := mul_le_mul_of_nonneg_left (hin z hz).le L.2
    rw [dist_eq_norm] at k2
    have := norm_sub_norm_le (G z) (G (γ t))
    linarith

section
variable {E : Type} [NormedAddCommGroup E] [NormedSpace ℝ E]

theorem growth_perturbed {L h ε W r : ℝ} (hL : 0 ≤ L) (hh : 0 ≤ h) (hε : 0 ≤ ε) (hW : 0 ≤ W) (N : Nat) (e : Nat → ℝ) (h0 : e 0 ≤ ε)
    (hr : ∀ k ≤ N, Real.exp (L * (k * h)) * (ε + k * h * W) ≤ r)
    (hs : ∀ k < N, e k ≤ r → e (k + 1) ≤ (1 + h * L) * e k + h * W) :
    ∀ k ≤ N, e k ≤ Real.exp (L * (k * h)) * (ε + k * h * W) := by
  intro k
  induction k with
  | zero => intro _; simpa using h0
  | succ k ih =>
    intro hk
    have ih := ih (by omega)
    have h1 := hs k (by omega) (ih.trans (hr k (by omega)))
    have h1e : 1 + h * L ≤ Real.exp (L * h) := by
      have := Real.add_one_le_exp (L * h); linarith [mul_comm L h]
    have hexp : Real.exp (L * ((k + 1 : Nat) * h)) = Real.exp (L * h) * Real.exp (L * (k * h)) := by
      rw [← Real.exp_add]; push_cast; ring_nf
    have hkh : 0 ≤ (k : ℝ) * h := mul_nonneg (Nat.cast_nonneg k) hh
    have hpos : 0 ≤ Real.exp (L * (k * h)) * (ε + k * h * W) :=
      mul_nonneg (Real.exp_pos _).le (add_nonneg hε (mul_nonneg hkh hW))
    have hone : 1 ≤ Real.exp (L * ((k + 1 : Nat) * h)) :=
      Real.one_le_exp (mul_nonneg hL (mul_nonneg (Nat.cast_nonneg _) hh))
    calc e (k + 1) ≤ (1 + h * L) * e k + h * W := h1
      _ ≤ (1 + h * L) * (Real.exp (L * (k * h)) * (ε + k * h * W)) + h * W := by
          have : 0 ≤ 1 + h * L := by have := mul_nonneg hh hL; linarith
          linarith [mul_le_mul_of_nonneg_left ih this]
      _ ≤ Real.exp (L * h) * (Real.exp (L * (k * h)) * (ε + k * h * W)) + h * W * Real.exp (L * ((k + 1 : Nat) * h)) :=
          add_le_add (mul_le_mul_of_nonneg_right h1e hpos) (le_mul_of_one_le_right (mul_nonneg hh hW) hone)
      _ = Real.exp (L * ((k + 1 : Nat) * h)) * (ε + (k + 1 : Nat) * h * W) := by
          rw [hexp]; push_cast; ring

/-- A one-step method `x ↦ x + h Ψ(t, x, h)` of order `p` whose times and states are perturbed by at most `h ε` in every step: the
states are within a constant times `h^p + ε` of the exact solution at the perturbed times. -/
theorem one_step_perturbed (p : Nat) (hp : 1 ≤ p) (Ψ : ℝ → E → ℝ → E) (y : ℝ → E) (t₀ b : ℝ)
    (hΨ : ∀ t ∈ Icc t₀ b, ContDiffAt ℝ (p + 1 : Nat) (fun z : ℝ × E × ℝ => Ψ z.1 z.2.1 z.2.2) (t, y t, 0))
    (hy : ∀ t ∈ Icc t₀ b, ContDiffAt ℝ (p + 1 : Nat) y t)
    (hord : ∀ t ∈ Icc t₀ b, (fun h => y t + h • Ψ t (y t) h - y (t + h)) =O[𝓝[>] 0] fun h : ℝ => h ^ (p + 1)) :
    ∃ C, 0 ≤ C ∧ ∃ δ > 0, ∀ δ' > 0, δ' ≤ δ → ∃ δ'' > 0, ∀ h ε, 0 < h → h ≤ δ'' → 0 ≤ ε → ε ≤ δ'' → ∀ (N : Nat) (x : Nat → E) (τ : Nat → ℝ),
      ‖x 0 - y t₀‖ ≤ ε → τ 0 = t₀ → (∀ k < N, |τ (k + 1) - (τ k + h)| ≤ h * ε ∧
        (‖x k - y (τ k)‖ ≤ δ' → ‖x (k + 1) - (x k + h • Ψ (τ k) (x k) h)‖ ≤ h * ε)) → (∀ k ≤ N, τ k ∈ Icc t₀ b) →
      ∀ k ≤ N, ‖x k - y (τ k)‖ ≤ C * (h ^ p + ε) := by
  obtain ⟨M, hM, r₁, hr₁, hloc⟩ := RK.local_uniform p Ψ y t₀ b hΨ hy hord
  obtain ⟨L, hL, B₂, -, r₂, hr₂, hlip⟩ := tube (fun z : ℝ × E × ℝ => Ψ z.1 z.2.1 z.2.2) (fun t => (t, y t, (0 : ℝ))) t₀ b
    (fun t ht => (hΨ t ht).of_le (by simp)) (fun t ht => continuousAt_id.prodMk ((hy t ht).continuousAt.prodMk continuousAt_const))
  obtain ⟨Ly, hLy, B₃, -, r₃, hr₃, hlipy⟩ := tube y (fun t => t) t₀ b (fun t ht => (hy t ht).of_le (by simp))
    (fun t _ => continuousAt_id)
  set D := 2 * |b - t₀| with hD
  have hD0 : 0 ≤ D := by positivity
  set C := Real.exp (L * D) * (1 + D * (M + 1 + Ly)) with hC
  have hC0 : 0 ≤ C := by positivity
  refine ⟨C, hC0, r₂, hr₂, fun δ' hδ' hδ'' => ?_⟩
  refine ⟨min (min (min r₁ r₂) (min (r₃ / 2) (1 / 2))) (δ' / (2 * (C + 1))), by positivity,
    fun h ε hh hle hε hεle N x τ hx0 hτ0 hs hbN => ?_⟩
  have g1 : h ≤ r₁ := hle.trans ((min_le_left _ _).trans ((min_le_left _ _).trans (min_le_left _ _)))
  have g2 : h ≤ r₂ := hle.trans ((min_le_left _ _).trans ((min_le_left _ _).trans (min_le_right _ _)))
  have g3 : h ≤ r₃ / 2 := hle.trans ((min_le_left _ _).trans ((min_le_right _ _).trans (min_le_left _ _)))
  have g4 : h ≤ 1 / 2 := hle.trans ((min_le_left _ _).trans ((min_le_right _ _).trans (min_le_right _ _)))
  have g5 : h ≤ δ' / (2 * (C + 1)) := hle.trans (min_le_right _ _)
  have g6 : ε ≤ 1 / 2 := hεle.trans ((min_le_left _ _).trans ((min_le_right _ _).trans (min_le_right _ _)))
  have g7 : ε ≤ δ' / (2 * (C + 1)) := hεle.trans (min_le_right _ _)
  set W := M * h ^ p + (1 + Ly) * ε with hW
  have hW0 : 0 ≤ W := by positivity
  have hhε : h * ε ≤ h / 2 := by nlinarith
  -- number of steps
  have hcount : ∀ k ≤ N, (k : ℝ) * h ≤ D := by
    have low : ∀ k ≤ N, t₀ + k * (h / 2) ≤ τ k := by
      intro k
      induction k with
      | zero => intro _; simp [hτ0]
      | succ k ih =>
        intro hk
        have h1 := ih (by omega)
        have h2 := (abs_le.1 (hs k (by omega)).1).1
        push_cast
        linarith
    intro k hk
    have h1 := low k hk
    have h2 := (hbN k hk).2
    have h3 := le_abs_self (b - t₀)
    linarith
  have hHp : h ^ p ≤ h := by
    obtain ⟨q, rfl⟩ : ∃ q, p = q + 1 := ⟨p - 1, by omega⟩
    rw [pow_succ]
    exact mul_le_of_le_one_left hh.le (pow_le_one₀ hh.le (by linarith))
  have hhp0 : 0 ≤ h ^ p := pow_nonneg hh.le p
  have hbound : ∀ k ≤ N, Real.exp (L * (k * h)) * (ε + k * h * W) ≤ C * (h ^ p + ε) := by
    intro k hk
    have h1 := hcount k hk
    have h2 : Real.exp (L * (k * h)) ≤ Real.exp (L * D) := Real.exp_le_exp.2 (mul_le_mul_of_nonneg_left h1 hL)
    have h3 : ε + k * h * W ≤ (1 + D * (M + 1 + Ly)) * (h ^ p + ε) := by
      have h4 : (k : ℝ) * h * W ≤ D * W := mul_le_mul_of_nonneg_right h1 hW0
      have h5 : W ≤ (M + 1 + Ly) * (h ^ p + ε) := by
        have e1 : 0 ≤ M * ε := mul_nonneg hM hε
        have e2 : 0 ≤ (1 + Ly) * h ^ p := mul_nonneg (by linarith) hhp0
        rw [hW]; nlinarith
      have h6 : D * W ≤ D * ((M + 1 + Ly) * (h ^ p + ε)) := mul_le_mul_of_nonneg_left h5 hD0
      nlinarith
    calc Real.exp (L * (k * h)) * (ε + k * h * W) ≤ Real.exp (L * D) * ((1 + D * (M + 1 + Ly)) * (h ^ p + ε)) :=
          mul_le_mul h2 h3 (by positivity) (Real.exp_pos _).le
      _ = C * (h ^ p + ε) := by rw [hC]; ring
  have hsmall : C * (h ^ p + ε) ≤ δ' := by
    have h1 : h ^ p + ε ≤ δ' / (C + 1) := by
      have e : δ' / (2 * (C + 1)) + δ' / (2 * (C + 1)) = δ' / (C + 1) := by field_simp; norm_num
      linarith
    calc C * (h ^ p + ε) ≤ C * (δ' / (C + 1)) := mul_le_mul_of_nonneg_left h1 hC0
      _ = δ' * (C / (C + 1)) := by ring
      _ ≤ δ' * 1 := by
          refine mul_le_mul_of_nonneg_left ?_ hδ'.le
          rw [div_le_one (by linarith)]
          linarith
      _ = δ' := mul_one _
  have key := growth_perturbed (r := δ') hL hh.le hε hW0 N (fun k => ‖x k - y (τ k)‖) (by simpa [hτ0] using hx0)
    (fun k hk => (hbound k hk).trans hsmall) (fun k hk hek => by
      obtain ⟨q1, q2⟩ := hs k hk
      have q2 := q2 hek
      have hti := hbN k hk.le
      have e : x (k + 1) - y (τ (k + 1)) = (x (k + 1) - (x k + h • Ψ (τ k) (x k) h)) + (x k - y (τ k)) +
          h • (Ψ (τ k) (x k) h - Ψ (τ k) (y (τ k)) h) + (y (τ k) + h • Ψ (τ k) (y (τ k)) h - y (τ k + h)) +
          (y (τ k + h) - y (τ (k + 1))) := by module
      have n1 := hlip (τ k) hti (τ k, x k, h) (τ k, y (τ k), h)
        (by
          rw [Prod.mk_sub_mk, Prod.mk_sub_mk, sub_self, sub_zero, Prod.norm_mk, Prod.norm_mk, norm_zero, Real.norm_of_nonneg hh.le]
          exact max_le hr₂.le (max_le (hek.trans hδ'') g2))
        (by
          rw [Prod.mk_sub_mk, Prod.mk_sub_mk, sub_self, sub_self, sub_zero, Prod.norm_mk, Prod.norm_mk, norm_zero, norm_zero,
            Real.norm_of_nonneg hh.le]
          exact max_le hr₂.le (max_le hr₂.le g2))
      have n1 := n1.1
      rw [Prod.mk_sub_mk, Prod.mk_sub_mk, sub_self, sub_self, Prod.norm_mk, Prod.norm_mk, norm_zero,
        max_eq_left (norm_nonneg _), max_eq_right (norm_nonneg _)] at n1
      have q1' := abs_le.1 q1
      have n2 := (hlipy (τ k) hti (τ k + h) (τ (k + 1))
        (by rw [add_sub_cancel_left, Real.norm_of_nonneg hh.le]; linarith)
        (by rw [Real.norm_eq_abs, abs_le]; constructor <;> linarith)).1
      have n3 : ‖τ k + h - τ (k + 1)‖ ≤ h * ε := by rw [norm_sub_rev]; exact q1
      have n2 := n2.trans (mul_le_mul_of_nonneg_left n3 hLy)
      have n4 := hloc (τ k) hti h hh.le g1
      have n5 : ‖h • (Ψ (τ k) (x k) h - Ψ (τ k) (y (τ k)) h)‖ ≤ h * (L * ‖x k - y (τ k)‖) := by
        rw [norm_smul, Real.norm_of_nonneg hh.le]
        exact mul_le_mul_of_nonneg_left n1 hh.le
      rw [e]
      refine (norm_add_le _ _).trans ?_
      have s1 := norm_add_le (x (k + 1) - (x k + h • Ψ (τ k) (x k) h) + (x k - y (τ k)) +
          h • (Ψ (τ k) (x k) h - Ψ (τ k) (y (τ k)) h)) (y (τ k) + h • Ψ (τ k) (y (τ k)) h - y (τ k + h))
      have s2 := norm_add_le (x (k + 1) - (x k + h • Ψ (τ k) (x k) h) + (x k - y (τ k)))
          (h • (Ψ (τ k) (x k) h - Ψ (τ k) (y (τ k)) h))
      have s3 := norm_add_le (x (k + 1) - (x k + h • Ψ (τ k) (x k) h)) (x k - y (τ k))
      have e2 : h * W = M * h ^ (p + 1) + (h * ε + Ly * (h * ε)) := by rw [hW]; ring
      rw [e2]
      linarith)
  intro k hk
  exact (key k hk).trans (hbound k hk)

end

end Verif.Round
