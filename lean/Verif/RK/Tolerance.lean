import Verif.Round.Perturb
import Verif.RK.Converge

/-! # One-step methods with variable steps that are perturbed, and what the step size controller lets through -/

namespace Verif.RK

open Filter Topology Asymptotics Set

section
variable {E : Type} [NormedAddCommGroup E] [NormedSpace ℝ E]

/-- A one-step method `x ↦ x + h Ψ(t, x, h)` of order `p` with variable steps whose states are perturbed by at most `η` in every
step: `N` steps end within a constant times `H^p + N η` of the exact solution. -/
theorem variable_perturbed (p : Nat) (hp : 1 ≤ p) (Ψ : ℝ → E → ℝ → E) (y : ℝ → E) (t₀ b : ℝ)
    (hΨ : ∀ t ∈ Icc t₀ b, ContDiffAt ℝ (p + 1 : Nat) (fun z : ℝ × E × ℝ => Ψ z.1 z.2.1 z.2.2) (t, y t, 0))
    (hy : ∀ t ∈ Icc t₀ b, ContDiffAt ℝ (p + 1 : Nat) y t)
    (hord : ∀ t ∈ Icc t₀ b, (fun h => y t + h • Ψ t (y t) h - y (t + h)) =O[𝓝[>] 0] fun h : ℝ => h ^ (p + 1)) :
    ∃ C : ℝ, 0 ≤ C ∧ ∃ h₀ > (0 : ℝ), ∀ H : ℝ, 0 ≤ H → H ≤ h₀ → ∀ η : ℝ, 0 ≤ η → ∀ (N : Nat) (x : Nat → E) (τ h : Nat → ℝ), N * η ≤ h₀ →
      x 0 = y t₀ → τ 0 = t₀ → (∀ k < N, 0 ≤ h k ∧ h k ≤ H ∧ τ (k + 1) = τ k + h k ∧
        ‖x (k + 1) - (x k + h k • Ψ (τ k) (x k) (h k))‖ ≤ η) → (∀ k ≤ N, τ k ≤ b) →
      ∀ k ≤ N, ‖x k - y (τ k)‖ ≤ C * (H ^ p + N * η) := by
  obtain ⟨M, hM, r₁, hr₁, hloc⟩ := local_uniform p Ψ y t₀ b hΨ hy hord
  obtain ⟨L, hL, B₂, -, r₂, hr₂, hlip⟩ := Round.tube (fun z : ℝ × E × ℝ => Ψ z.1 z.2.1 z.2.2) (fun t => (t, y t, (0 : ℝ))) t₀ b
    (fun t ht => (hΨ t ht).of_le (by simp)) (fun t ht => continuousAt_id.prodMk ((hy t ht).continuousAt.prodMk continuousAt_const))
  set D := |b - t₀| with hD
  have hD0 : 0 ≤ D := by positivity
  set C := Real.exp (L * D) * (M * D + 1) with hC
  have hC0 : 0 ≤ C := by positivity
  refine ⟨C, hC0, min (min (min r₁ r₂) 1) (r₂ / (2 * (C + 1))), by positivity,
    fun H hH hle η hη N x τ h hN hx0 hτ0 hs hbN => ?_⟩
  have g1 : H ≤ r₁ := hle.trans ((min_le_left _ _).trans ((min_le_left _ _).trans (min_le_left _ _)))
  have g2 : H ≤ r₂ := hle.trans ((min_le_left _ _).trans ((min_le_left _ _).trans (min_le_right _ _)))
  have g3 : H ≤ 1 := hle.trans ((min_le_left _ _).trans (min_le_right _ _))
  have g4 : H ≤ r₂ / (2 * (C + 1)) := hle.trans (min_le_right _ _)
  have g5 : N * η ≤ r₂ / (2 * (C + 1)) := hN.trans (min_le_right _ _)
  have hHp : H ^ p ≤ H := by
    obtain ⟨q, rfl⟩ : ∃ q, p = q + 1 := ⟨p - 1, by omega⟩
    rw [pow_succ]
    exact mul_le_of_le_one_left hH (pow_le_one₀ hH g3)
  have hp0 : 0 ≤ H ^ p := pow_nonneg hH p
  have hmono : ∀ k ≤ N, t₀ ≤ τ k := by
    intro k
    induction k with
    | zero => intro _; rw [hτ0]
    | succ k ih =>
      intro hk
      obtain ⟨q1, _, q3, _⟩ := hs k (by omega)
      have := ih (by omega)
      linarith
  have hDk : ∀ k ≤ N, τ k - t₀ ≤ D := fun k hk => by
    have h1 := hbN k hk
    have h2 := le_abs_self (b - t₀)
    linarith
  -- the bound reached after `k` steps
  have hbound : ∀ k ≤ N, Real.exp (L * (τ k - t₀)) * (M * H ^ p * (τ k - t₀) + k * η) ≤ C * (H ^ p + N * η) := by
    intro k hk
    have h1 := hDk k hk
    have h0 := hmono k hk
    have h2 : Real.exp (L * (τ k - t₀)) ≤ Real.exp (L * D) := Real.exp_le_exp.2 (mul_le_mul_of_nonneg_left h1 hL)
    have h3 : (k : ℝ) * η ≤ N * η := mul_le_mul_of_nonneg_right (by exact_mod_cast hk) hη
    have h4 : M * H ^ p * (τ k - t₀) ≤ M * H ^ p * D := mul_le_mul_of_nonneg_left h1 (mul_nonneg hM hp0)
    have h5 : 0 ≤ (N : ℝ) * η := by positivity
    have h6 : 0 ≤ M * H ^ p * (τ k - t₀) := mul_nonneg (mul_nonneg hM hp0) (by linarith)
    have h7 : M * H ^ p * (τ k - t₀) + k * η ≤ (M * D + 1) * (H ^ p + N * η) := by
      have : 0 ≤ M * D * (N * η) := by positivity
      have e : (M * D + 1) * (H ^ p + N * η) = M * H ^ p * D + N * η + H ^ p + M * D * (N * η) := by ring
      rw [e]; linarith
    calc Real.exp (L * (τ k - t₀)) * (M * H ^ p * (τ k - t₀) + k * η) ≤ Real.exp (L * D) * ((M * D + 1) * (H ^ p + N * η)) :=
          mul_le_mul h2 h7 (add_nonneg h6 (by positivity)) (Real.exp_pos _).le
      _ = C * (H ^ p + N * η) := by rw [hC]; ring
  have hsmall : C * (H ^ p + N * η) ≤ r₂ := by
    have h1 : H ^ p + N * η ≤ r₂ / (C + 1) := by
      have e : r₂ / (2 * (C + 1)) + r₂ / (2 * (C + 1)) = r₂ / (C + 1) := by field_simp; norm_num
      linarith
    calc C * (H ^ p + N * η) ≤ C * (r₂ / (C + 1)) := mul_le_mul_of_nonneg_left h1 hC0
      _ = r₂ * (C / (C + 1)) := by ring
      _ ≤ r₂ * 1 := by
          refine mul_le_mul_of_nonneg_left ?_ hr₂.le
          rw [div_le_one (by linarith)]
          linarith
      _ = r₂ := mul_one _
  have key : ∀ k ≤ N, ‖x k - y (τ k)‖ ≤ Real.exp (L * (τ k - t₀)) * (M * H ^ p * (τ k - t₀) + k * η) := by
    intro k
    induction k with
    | zero => intro _; simp [hx0, hτ0]
    | succ k ih =>
      intro hk
      have ih := ih (by omega)
      obtain ⟨q1, q2, q3, q4⟩ := hs k (by omega)
      have hti : τ k ∈ Icc t₀ b := ⟨hmono k (by omega), hbN k (by omega)⟩
      have hek : ‖x k - y (τ k)‖ ≤ r₂ := ih.trans ((hbound k (by omega)).trans hsmall)
      have e : x (k + 1) - y (τ (k + 1)) = (x (k + 1) - (x k + h k • Ψ (τ k) (x k) (h k))) + (x k - y (τ k)) +
          h k • (Ψ (τ k) (x k) (h k) - Ψ (τ k) (y (τ k)) (h k)) + (y (τ k) + h k • Ψ (τ k) (y (τ k)) (h k) - y (τ k + h k)) := by
        rw [q3]; module
      have n1 := hlip (τ k) hti (τ k, x k, h k) (τ k, y (τ k), h k)
        (by
          rw [Prod.mk_sub_mk, Prod.mk_sub_mk, sub_self, sub_zero, Prod.norm_mk, Prod.norm_mk, norm_zero, Real.norm_of_nonneg q1]
          exact max_le hr₂.le (max_le hek (q2.trans g2)))
        (by
          rw [Prod.mk_sub_mk, Prod.mk_sub_mk, sub_self, sub_self, sub_zero, Prod.norm_mk, Prod.norm_mk, norm_zero, norm_zero,
            Real.norm_of_nonneg q1]
          exact max_le hr₂.le (max_le hr₂.le (q2.trans g2)))
      have n1 := n1.1
      rw [Prod.mk_sub_mk, Prod.mk_sub_mk, sub_self, sub_self, Prod.norm_mk, Prod.norm_mk, norm_zero,
        max_eq_left (norm_nonneg _), max_eq_right (norm_nonneg _)] at n1
      have n4 := hloc (τ k) hti (h k) q1 (q2.trans g1)
      have n5 : ‖h k • (Ψ (τ k) (x k) (h k) - Ψ (τ k) (y (τ k)) (h k))‖ ≤ h k * (L * ‖x k - y (τ k)‖) := by
        rw [norm_smul, Real.norm_of_nonneg q1]
        exact mul_le_mul_of_nonneg_left n1 q1
      have n6 : M * h k ^ (p + 1) ≤ h k * (M * H ^ p) := by
        have := mul_le_mul_of_nonneg_left (pow_le_pow_left₀ q1 q2 p) (mul_nonneg hM q1)
        calc M * h k ^ (p + 1) = M * h k * h k ^ p := by ring
          _ ≤ M * h k * H ^ p := this
          _ = h k * (M * H ^ p) := by ring
      have step : ‖x (k + 1) - y (τ (k + 1))‖ ≤ (1 + h k * L) * ‖x k - y (τ k)‖ + (h k * (M * H ^ p) + η) := by
        rw [e]
        refine (norm_add_le _ _).trans ?_
        have s2 := norm_add_le (x (k + 1) - (x k + h k • Ψ (τ k) (x k) (h k)) + (x k - y (τ k)))
            (h k • (Ψ (τ k) (x k) (h k) - Ψ (τ k) (y (τ k)) (h k)))
        have s3 := norm_add_le (x (k + 1) - (x k + h k • Ψ (τ k) (x k) (h k))) (x k - y (τ k))
        have e2 : (1 + h k * L) * ‖x k - y (τ k)‖ = ‖x k - y (τ k)‖ + h k * (L * ‖x k - y (τ k)‖) := by ring
        rw [e2]
        linarith
      have hpos : 0 ≤ M * H ^ p * (τ k - t₀) + k * η :=
        add_nonneg (mul_nonneg (mul_nonneg hM hp0) (by linarith [hti.1])) (by positivity)
      have hexp : Real.exp (L * (τ (k + 1) - t₀)) = Real.exp (L * h k) * Real.exp (L * (τ k - t₀)) := by
        rw [← Real.exp_add, q3]; ring_nf
      have h1e : 1 + h k * L ≤ Real.exp (L * h k) := by
        have := Real.add_one_le_exp (L * h k); linarith [mul_comm L (h k)]
      have hone : 1 ≤ Real.exp (L * (τ (k + 1) - t₀)) :=
        Real.one_le_exp (mul_nonneg hL (by linarith [hmono (k + 1) hk]))
      have hW : 0 ≤ h k * (M * H ^ p) + η := add_nonneg (mul_nonneg q1 (mul_nonneg hM hp0)) hη
      calc ‖x (k + 1) - y (τ (k + 1))‖ ≤ (1 + h k * L) * ‖x k - y (τ k)‖ + (h k * (M * H ^ p) + η) := step
        _ ≤ (1 + h k * L) * (Real.exp (L * (τ k - t₀)) * (M * H ^ p * (τ k - t₀) + k * η)) + (h k * (M * H ^ p) + η) := by
            have : 0 ≤ 1 + h k * L := by have := mul_nonneg q1 hL; linarith
            linarith [mul_le_mul_of_nonneg_left ih this]
        _ ≤ Real.exp (L * h k) * (Real.exp (L * (τ k - t₀)) * (M * H ^ p * (τ k - t₀) + k * η)) +
              (h k * (M * H ^ p) + η) * Real.exp (L * (τ (k + 1) - t₀)) :=
            add_le_add (mul_le_mul_of_nonneg_right h1e (mul_nonneg (Real.exp_pos _).le hpos)) (le_mul_of_one_le_right hW hone)
        _ = Real.exp (L * (τ (k + 1) - t₀)) * (M * H ^ p * (τ (k + 1) - t₀) + (k + 1 : Nat) * η) := by
            rw [hexp, q3]; push_cast; ring
  exact fun k hk => (key k hk).trans (hbound k hk)

/-- A step of the lower order differs from the step of the higher order by what the step size controller lets through. -/
theorem accepted_near {V Q : Type} [NormedAddCommGroup V] [NormedSpace ℝ V] {m : EmbMethod ℝ V Q} {c : CtlParams ℝ}
    (hc : SimpleControl m c) (hd : m.disableErrorCheck = false) {κ : ℝ} (hκ : 0 ≤ κ) (hn : ∀ v, ‖v‖ ≤ κ * m.norm v)
    {T : Tableau ℝ} {t h : ℝ} {x : V} (ha : (m.judge T t x h).acceptStep = true) :
    ‖T.output m.rhs t h x (if m.lowMode then 1 else 0) - T.output m.rhs t h x 0‖ ≤
      κ * c.tolerance / (1 - geomEps) ^ (m.lowOrder + 1) := by
  have hg : (0 : ℝ) < (1 - geomEps) ^ (m.lowOrder + 1) := pow_pos (by linarith [geomEps_lt (K := ℝ)]) _
  cases hl : m.lowMode with
  | false => simp only [Bool.false_eq_true, if_false, sub_self, norm_zero]; have := hc.tol; positivity
  | true =>
    simp only [if_true]
    unfold EmbMethod.judge EmbMethod.verdict at ha
    rw [hd, if_neg (by simp), hc.control] at ha
    have h1 := (C29_acceptance c h _ m.lowOrder hc.tol (hc.norm _)).2 ha
    rw [le_div_iff₀ hg, norm_sub_rev]
    calc ‖T.output m.rhs t h x 0 - T.output m.rhs t h x 1‖ * (1 - geomEps) ^ (m.lowOrder + 1)
        ≤ κ * m.norm (T.output m.rhs t h x 0 - T.output m.rhs t h x 1) * (1 - geomEps) ^ (m.lowOrder + 1) :=
          mul_le_mul_of_nonneg_right (hn _) hg.le
      _ = κ * (m.norm (T.output m.rhs t h x 0 - T.output m.rhs t h x 1) * (1 - geomEps) ^ (m.lowOrder + 1)) := by ring
      _ ≤ κ * c.tolerance := mul_le_mul_of_nonneg_left h1 hκ

/-- After a `doStep` that returns the buffers are allocated. -/
theorem accepted_k {V Q : Type} [AddCommGroup V] [Module ℝ V] {m : EmbMethod ℝ V Q} {T : Tableau ℝ} (hu : Uses m T) :
    ∀ (fuel : Nat) (s s' : FixedSt ℝ V Q), Ready T s → s.doStepEmb m fuel = some (.ok (.accepted s')) → s'.out.k ≠ [] := by
  intro fuel
  induction fuel with
  | zero => intro s s' _ h; cases h
  | succ fuel ih =>
    intro s s' hr h
    unfold FixedSt.doStepEmb at h
    cases hA : s.attempt m with
    | error e => rw [hA] at h; simp at h
    | ok A =>
      rw [hA] at h
      cases A with
      | thrown msg q => simp at h
      | rejected q => exact ih q s' (C30_attempt m T hu s hr _ hA).choose_spec.2.1 h
      | accepted q =>
        simp only [Option.some.injEq, Except.ok.injEq, Attempt.accepted.injEq] at h
        subst h
        obtain ⟨h', hi, lo, o', _, c2, _, _, c5, _⟩ := attempt_inv hA
        obtain ⟨d1, d2, _⟩ := hu.init hr
        obtain ⟨o'', k1, k2, _⟩ := hu.kernel s.x s.t h' _ d1 d2
        rw [k1] at c2
        cases c2
        have hp := hu.pos
        intro hn
        have := congrArg List.length c5
        simp only [Attempt.state] at this
        rw [hn, k2] at this
        simp at this
        omega

/-- With a threshold for the step all steps stay below it. -/
theorem below_threshold {V Q : Type} [AddCommGroup V] [Module ℝ V] {m : EmbMethod ℝ V Q} {T : Tableau ℝ} (hu : Uses m T)
    {I : Q → Prop} (hq : Quiet m.ec I) {c : CtlParams ℝ} (hc : SimpleControl m c) (hd : m.disableErrorCheck = false)
    (hinc : 0 < c.incMin) (hmax : 0 < c.incMax → c.incMin ≤ c.incMax) (hthr : 0 < c.maxThreshold) {s s' : FixedSt ℝ V Q}
    (hr : Ready T s) (hI : I s.ec) {h₀ : ℝ} (hs : s.stepInUse = some h₀) (hpos : 0 < h₀) (hle : h₀ ≤ c.maxThreshold) {fuel : Nat}
    (h : s.doStepEmb m fuel = some (.ok (.accepted s'))) :
    s.t ≤ s'.t ∧ s'.t ≤ s.t + c.maxThreshold ∧ ∃ h', s'.stepInUse = some h' ∧ 0 < h' ∧ h' ≤ c.maxThreshold := by
  obtain ⟨h₁, h₂, b1, b2, b3, b4, -, b6, -⟩ := C30_quiet m T hu I hq fuel s s' hI hr h
  rw [hs] at b1
  cases b1
  have hh : 0 < h₂ ∧ h₂ ≤ h₀ := by
    clear b3 b4 b6
    induction b2 with
    | refl => exact ⟨hpos, le_rfl⟩
    | tail _ hn ih =>
      obtain ⟨d1, d2, -⟩ := hc.shrinks ih.1 hn
      exact ⟨d1, d2.trans ((mul_le_of_le_one_right ih.1.le (factor_lt_one hc).2.le).trans ih.2)⟩
  refine ⟨by linarith, by linarith, (m.judge T s.t s.x h₂).step h₂, ?_, ?_⟩
  · unfold FixedSt.stepInUse
    rw [if_neg (by simpa using accepted_k hu fuel s s' hr h)]
    exact b6
  · unfold EmbMethod.judge EmbMethod.verdict at b3 ⊢
    rw [hd, if_neg (by simp), hc.control] at b3 ⊢
    obtain ⟨c1, c2⟩ := C29_growth c h₂ _ m.lowOrder hh.1 b3
    unfold CtlResult.step
    split
    · rename_i hch
      obtain ⟨-, d2, d3⟩ := c2 hch
      exact ⟨lt_of_lt_of_le (mul_pos hinc hh.1) (d3 hinc hmax), d2 hthr⟩
    · exact ⟨hh.1, hh.2.trans hle⟩

end

end Verif.RK
