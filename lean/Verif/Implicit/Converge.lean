import Verif.Implicit.EulerProps
import Verif.Ros.OrderProps
import Verif.RK.Converge

/-! # C106: convergence of the implicit Euler solver -/

namespace Verif.Implicit

open Verif.Res Verif.Alg
open Verif.Ros (fn fn_ofFn ofFn_fn Computes)
open Asymptotics Filter Topology Set

section
variable {F : Type} [NormedAddCommGroup F] [NormedSpace ℝ F]

/-- What is smooth, and `O(hⁿ)` at every point of an interval, is so uniformly. -/
theorem uniform_compact (n : Nat) (G : ℝ × ℝ → F) (t₀ b : ℝ) (hG : ∀ t ∈ Icc t₀ b, ContDiffAt ℝ n G (t, 0))
    (hO : ∀ t ∈ Icc t₀ b, (fun h => G (t, h)) =O[𝓝[>] 0] fun h : ℝ => h ^ n) :
    ∃ M, 0 ≤ M ∧ ∃ r > 0, ∀ t ∈ Icc t₀ b, ∀ s, 0 ≤ s → s ≤ r → ‖G (t, s)‖ ≤ M * s ^ n := by
  have gen : ∃ M, 0 ≤ M ∧ ∃ r > 0, ∀ t ∈ Icc t₀ b, t ∈ Icc t₀ b → ∀ s, 0 ≤ s → s ≤ r → ‖G (t, s)‖ ≤ M * s ^ n := by
    refine isCompact_Icc.induction_on (p := fun S => ∃ M, 0 ≤ M ∧ ∃ r > 0, ∀ t ∈ S, t ∈ Icc t₀ b → ∀ s, 0 ≤ s →
      s ≤ r → ‖G (t, s)‖ ≤ M * s ^ n) ?_ ?_ ?_ ?_
    · exact ⟨0, le_refl _, 1, one_pos, by simp⟩
    · rintro S S' hSS ⟨L, hL, r, hr, h⟩
      exact ⟨L, hL, r, hr, fun t ht => h t (hSS ht)⟩
    · rintro S S' ⟨L, hL, r, hr, h⟩ ⟨L', hL', r', hr', h'⟩
      refine ⟨max L L', le_max_of_le_left hL, min r r', by positivity, ?_⟩
      rintro t (ht | ht) hti s s0 s1
      · exact (h t ht hti s s0 (s1.trans (min_le_left _ _))).trans
          (mul_le_mul_of_nonneg_right (le_max_left _ _) (pow_nonneg s0 _))
      · exact (h' t ht hti s s0 (s1.trans (min_le_right _ _))).trans
          (mul_le_mul_of_nonneg_right (le_max_right _ _) (pow_nonneg s0 _))
    · intro t ht
      obtain ⟨ρ, hρ, M, hM, h1⟩ := RK.uniform_local n G t (hG t ht)
      refine ⟨{t' | |t' - t| ≤ ρ}, mem_nhdsWithin_of_mem_nhds ?_, M, hM, ρ, hρ, ?_⟩
      · filter_upwards [Metric.closedBall_mem_nhds t hρ] with t' h'
        rwa [Metric.mem_closedBall, Real.dist_eq] at h'
      · intro t' ht' hti s s0 s1
        exact h1 t' ht' (hO t' hti) s s0 s1
  obtain ⟨M, hM, r, hr, h⟩ := gen
  exact ⟨M, hM, r, hr, fun t ht => h t ht ht⟩

/-- What the exact solution leaves in the equations of the method -/
theorem defect_order {f : ℝ → F → F} {y : ℝ → F} {t : ℝ} (alpha : ℝ)
    (hf : ContDiffAt ℝ 2 (fun z : ℝ × F => f z.1 z.2) (t, y t))
    (hy : ∀ᶠ s in 𝓝 t, HasDerivAt y (f s (y s)) s) :
    (fun h : ℝ => y t + h • ((1 - alpha) • f t (y t) + alpha • f (t + h) (y (t + h))) - y (t + h))
      =O[𝓝 0] (fun h : ℝ => h ^ 2) ∧
    (alpha = 1 / 2 →
      (fun h : ℝ => y t + h • ((1 - alpha) • f t (y t) + alpha • f (t + h) (y (t + h))) - y (t + h))
        =O[𝓝 0] (fun h : ℝ => h ^ 3)) := by
  have hyc : ContDiffAt ℝ 2 y t := RK.solution_contDiffAt (n := 2) hf hy
  set g : ℝ → F := fun s => f s (y s) with hg
  have hgc : ContDiffAt ℝ 2 g t :=
    ContDiffAt.comp (g := fun z : ℝ × F => f z.1 z.2) (f := fun s => (s, y s)) t hf (contDiffAt_id.prodMk hyc)
  have hshift : Tendsto (fun h : ℝ => t + h) (𝓝 0) (𝓝 t) := by
    have : Continuous (fun h : ℝ => t + h) := by fun_prop
    simpa using this.tendsto 0
  have hadd : ∀ h : ℝ, HasDerivAt (fun h : ℝ => t + h) 1 h := fun h => (hasDerivAt_id h).const_add t
  have hdy : ∀ᶠ h : ℝ in 𝓝 0, HasDerivAt (fun h => y (t + h)) (g (t + h)) h := by
    filter_upwards [hshift.eventually hy] with h hh
    have := hh.scomp h (hadd h)
    rwa [one_smul] at this
  have hdg : ∀ᶠ h : ℝ in 𝓝 0, HasDerivAt (fun h => g (t + h)) (deriv g (t + h)) h := by
    have : ∀ᶠ s in 𝓝 t, DifferentiableAt ℝ g s := by
      filter_upwards [hgc.eventually (by simp)] with s hs
      exact hs.differentiableAt (by simp)
    filter_upwards [hshift.eventually this] with h hh
    have := hh.hasDerivAt.scomp h (hadd h)
    rwa [one_smul] at this
  have hd2 : DifferentiableAt ℝ (deriv g) t := by
    have h1 : ContDiffAt ℝ 1 (fderiv ℝ g) t := hgc.fderiv_right (by norm_num)
    have h2 : DifferentiableAt ℝ (fderiv ℝ g) t := h1.differentiableAt (by simp)
    exact h2.clm_apply (differentiableAt_const 1)
  have c1 : (fun h : ℝ => deriv g (t + h) - deriv g t) =O[𝓝 0] (fun h : ℝ => h ^ 1) := by
    have := hd2.isBigO_sub.comp_tendsto hshift
    refine this.trans ?_
    simpa [Function.comp_def] using isBigO_refl (fun h : ℝ => h) (𝓝 0)
  have c2 : (fun h : ℝ => g (t + h) - g t - h • deriv g t) =O[𝓝 0] (fun h : ℝ => h ^ 2) := by
    refine RK.integrate_isBigO (m := 1) (by simp) ?_ c1
    filter_upwards [hdg] with h hh
    have h3 : HasDerivAt (fun h : ℝ => h • deriv g t) ((1 : ℝ) • deriv g t) h := (hasDerivAt_id h).smul_const _
    simpa using (hh.sub_const (g t)).fun_sub h3
  have c3 : (fun h : ℝ => g (t + h) - g t) =O[𝓝 0] (fun h : ℝ => h ^ 1) := Ros.first_order le_rfl c2
  have c4 : (fun h : ℝ => (1 * h ^ 1) • (deriv g (t + h) - deriv g t)) =O[𝓝 0] (fun h : ℝ => h ^ 2) :=
    Ros.smul_big 1 1 c1
  have c5 : (fun h : ℝ => (1 * h ^ 1) • deriv g t) =O[𝓝 0] (fun h : ℝ => h ^ 1) :=
    Ros.smul_big 1 1 (Ros.const_big _ (deriv g t))
  have hder : ∀ᶠ h : ℝ in 𝓝 0, HasDerivAt
      (fun h : ℝ => y t + h • ((1 - alpha) • g t + alpha • g (t + h)) - y (t + h))
      ((1 - alpha) • g t + alpha • g (t + h) + h • (alpha • deriv g (t + h)) - g (t + h)) h := by
    filter_upwards [hdy, hdg] with h e1 e2
    have h1 : HasDerivAt (fun h : ℝ => (1 - alpha) • g t + alpha • g (t + h)) (alpha • deriv g (t + h)) h :=
      (e2.const_smul alpha).const_add _
    have h2 := (hasDerivAt_id h).fun_smul h1
    have h3 := (h2.const_add (y t)).fun_sub e1
    refine h3.congr_deriv ?_
    simp only [id, one_smul]
    abel
  refine ⟨RK.integrate_isBigO (m := 1) (by simp) hder ?_, fun ha => RK.integrate_isBigO (m := 2) (by simp) hder ?_⟩
  · have h1 := c3.const_smul_left (alpha - 1)
    have h2 := (c4.trans (Ros.pow_le le_rfl (by omega : 1 ≤ 2))).const_smul_left alpha
    have h3 := c5.const_smul_left alpha
    refine ((h1.add h2).add h3).congr_left (fun h => ?_)
    simp only [Pi.smul_apply]
    module
  · have h1 := c2.const_smul_left (-(1 / 2) : ℝ)
    have h2 := c4.const_smul_left (1 / 2 : ℝ)
    refine (h1.add h2).congr_left (fun h => ?_)
    simp only [Pi.smul_apply, ha]
    module

omit [NormedSpace ℝ F] [NormedAddCommGroup F] in
/-- Growth of the error -/
theorem growth {e : Nat → ℝ} {q δ : ℝ} (hq : 0 ≤ q) (hδ : 0 ≤ δ) (h0 : e 0 = 0) {N : Nat}
    (hs : ∀ k < N, e (k + 1) ≤ (1 + q) * e k + δ) : ∀ k ≤ N, e k ≤ k * δ * Real.exp (k * q) := by
  intro k
  induction k with
  | zero => intro _; simp [h0]
  | succ k ih =>
    intro hk
    have h1 := ih (by omega)
    have h2 := hs k (by omega)
    have h3 : 1 + q ≤ Real.exp q := by linarith [Real.add_one_le_exp q]
    have h4 : Real.exp ((k + 1 : Nat) * q) = Real.exp (k * q) * Real.exp q := by
      rw [← Real.exp_add]; push_cast; ring_nf
    have h5 : 1 ≤ Real.exp (k * q) * Real.exp q := by
      rw [← Real.exp_add]
      exact Real.one_le_exp (by positivity)
    calc e (k + 1) ≤ (1 + q) * e k + δ := h2
      _ ≤ (1 + q) * (k * δ * Real.exp (k * q)) + δ := by gcongr
      _ ≤ Real.exp q * (k * δ * Real.exp (k * q)) + δ * (Real.exp (k * q) * Real.exp q) := by
          gcongr
          exact le_mul_of_one_le_right hδ h5
      _ = (k + 1 : Nat) * δ * Real.exp ((k + 1 : Nat) * q) := by rw [h4]; push_cast; ring

/-- Error of one step of the alpha method that is solved within `tol` -/
theorem alpha_step {f0 f1 g0 g1 x0 x1 y0 y1 : F} {alpha h L tol δ : ℝ} (hh : 0 ≤ h) (hL : 0 ≤ L)
    (hsmall : 2 * (h * (|alpha| * L)) ≤ 1)
    (hx : ‖x1 - (x0 + h • ((1 - alpha) • f0 + alpha • f1))‖ ≤ tol)
    (hy : ‖y0 + h • ((1 - alpha) • g0 + alpha • g1) - y1‖ ≤ δ)
    (l0 : ‖f0 - g0‖ ≤ L * ‖x0 - y0‖) (l1 : ‖f1 - g1‖ ≤ L * ‖x1 - y1‖) :
    ‖x1 - y1‖ ≤ (1 + h * (2 * L * (|alpha| + |1 - alpha|))) * ‖x0 - y0‖ + 2 * (tol + δ) := by
  have e : x1 - y1 = (x1 - (x0 + h • ((1 - alpha) • f0 + alpha • f1))) +
      (y0 + h • ((1 - alpha) • g0 + alpha • g1) - y1) +
      ((x0 - y0) + (h * (1 - alpha)) • (f0 - g0) + (h * alpha) • (f1 - g1)) := by module
  have n0 : ‖(h * (1 - alpha)) • (f0 - g0)‖ ≤ h * |1 - alpha| * (L * ‖x0 - y0‖) := by
    rw [norm_smul, Real.norm_eq_abs, abs_mul, abs_of_nonneg hh]
    gcongr
  have n1 : ‖(h * alpha) • (f1 - g1)‖ ≤ h * |alpha| * (L * ‖x1 - y1‖) := by
    rw [norm_smul, Real.norm_eq_abs, abs_mul, abs_of_nonneg hh]
    gcongr
  have h1 : ‖x1 - y1‖ ≤ tol + δ + (‖x0 - y0‖ + h * |1 - alpha| * (L * ‖x0 - y0‖) + h * |alpha| * (L * ‖x1 - y1‖)) := by
    calc ‖x1 - y1‖ = _ := congrArg norm e
      _ ≤ _ := (norm_add_le _ _).trans (add_le_add ((norm_add_le _ _).trans (add_le_add hx hy))
          ((norm_add_le _ _).trans (add_le_add ((norm_add_le _ _).trans (add_le_add le_rfl n0)) n1)))
  have t0 : 0 ≤ tol := (norm_nonneg _).trans hx
  have d0 : 0 ≤ δ := (norm_nonneg _).trans hy
  have hz : 0 ≤ h * (|alpha| * L) := by positivity
  have hw : 0 ≤ h * (|1 - alpha| * L) := by positivity
  have a0 := norm_nonneg (x0 - y0)
  generalize ‖x1 - y1‖ = u at *
  generalize ‖x0 - y0‖ = v at *
  generalize hzz : h * (|alpha| * L) = z at *
  generalize hww : h * (|1 - alpha| * L) = w at *
  have h2 : u * (1 - z) ≤ tol + δ + (1 + w) * v := by
    have : h * |1 - alpha| * (L * v) = w * v := by rw [← hww]; ring
    have : h * |alpha| * (L * u) = z * u := by rw [← hzz]; ring
    linarith
  have h3 : 1 ≤ (1 - z) * (1 + 2 * z) := by nlinarith
  have hr : 0 ≤ tol + δ + (1 + w) * v := by positivity
  have h4 : u ≤ (1 + 2 * z) * (tol + δ + (1 + w) * v) := by
    by_cases hu : 0 ≤ u
    · calc u ≤ u * ((1 - z) * (1 + 2 * z)) := le_mul_of_one_le_right hu h3
        _ = (1 + 2 * z) * (u * (1 - z)) := by ring
        _ ≤ _ := mul_le_mul_of_nonneg_left h2 (by linarith)
    · push Not at hu
      exact hu.le.trans (by positivity)
  have h5 : h * (2 * L * (|alpha| + |1 - alpha|)) = 2 * z + 2 * w := by rw [← hzz, ← hww]; ring
  rw [h5]
  have h6 : (1 + 2 * z) * (tol + δ) ≤ 2 * (tol + δ) := mul_le_mul_of_nonneg_right (by linarith) (by linarith)
  have h7 : (1 + 2 * z) * (1 + w) ≤ 1 + (2 * z + 2 * w) := by nlinarith
  calc u ≤ _ := h4
    _ = (1 + 2 * z) * (1 + w) * v + (1 + 2 * z) * (tol + δ) := by ring
    _ ≤ (1 + (2 * z + 2 * w)) * v + 2 * (tol + δ) := add_le_add (mul_le_mul_of_nonneg_right h7 a0) h6

end

section
variable {D E : Type}

/-- `run` keeps the tolerances. -/
theorem run_tols {K : Type} [Field K] [LinearOrder K] [IsStrictOrderedRing K] {P : Parts D K} {s s' : Perf D K}
    {observers : Nat → Perf D K → Res Bool} {limit : Nat}
    {st : RunStatus} (h : (P.env observers).run limit s = .ok (s', st)) :
    s'.est.absTol = s.est.absTol ∧ s'.est.relTol = s.est.relTol := by
  refine (run_inv (P.env observers) (fun t : Perf D K => t.est.absTol = s.est.absTol ∧ t.est.relTol = s.est.relTol)
    (s := s) ?_ ?_ ?_ ?_ ?_ ?_ h).1
  · intro s1 h1
    cases h1
    exact ⟨rfl, rfl⟩
  · rintro it t ⟨r, st'⟩ ⟨c2, c3⟩ h1
    have h1 : t.iteration P it = .ok (r, st') := h1
    unfold Perf.iteration at h1
    obtain ⟨t1, g1, h1⟩ := bind_inv h1
    obtain ⟨d, -, h1⟩ := bind_inv h1
    obtain ⟨q, -, h1⟩ := bind_inv h1
    obtain ⟨x, -, h1⟩ := bind_inv h1
    obtain ⟨est, g5, h1⟩ := bind_inv h1
    cases h1
    obtain ⟨q1, q2, -⟩ := ((C20_history _ [] _ _).2.2.1 _ g5).2
    have ht : t1.est = t.est := by
      unfold Perf.currentResidual at g1
      split at g1
      · cases g1; rfl
      · obtain ⟨f, -, g1⟩ := bind_inv g1
        cases g1
        rfl
    dsimp only
    exact ⟨by rw [q1, ht, c2], by rw [q2, ht, c3]⟩
  · intro n t r hI h1
    obtain ⟨b, -, h1⟩ := bind_inv h1
    cases h1
    exact hI
  · intro t r hI h1
    cases h1
    exact hI
  · intro b t r hI h1
    cases h1
    exact hI
  · rintro s1 s2 s3 h1 ⟨c2, c3⟩ h3
    cases h1
    cases h3
    exact ⟨c2, c3⟩

/-- What a step keeps -/
theorem step_keeps {K : Type} [Field K] [LinearOrder K] [IsStrictOrderedRing K] (M : IMethod D K E)
    {s s' : ISolver D K E} {tr : RK.Trunc} (h : s.doStep M = .ok (s', tr)) :
    s'.hInit = s.hInit ∧ s'.map.alpha = s.map.alpha ∧ s'.perf.est.absTol = s.perf.est.absTol ∧
      s'.perf.est.relTol = s.perf.est.relTol ∧ (M.ec = none → s'.ec = s.ec) := by
  unfold ISolver.doStep at h
  dsimp only at h
  obtain ⟨g, -, h⟩ := bind_inv h
  obtain ⟨e, he, h⟩ := bind_inv h
  obtain ⟨r, hr, h⟩ := bind_inv h
  obtain ⟨t1, t2⟩ := run_tols hr
  split at h
  · cases h
  · obtain ⟨eqn, -, h⟩ := bind_inv h
    obtain ⟨buf, -, h⟩ := bind_inv h
    obtain ⟨q, hq, h⟩ := bind_inv h
    cases h
    refine ⟨rfl, rfl, ?_, ?_, fun hec => ?_⟩
    · refine Eq.trans ?_ t1
      dsimp only
      split <;> rfl
    · refine Eq.trans ?_ t2
      dsimp only
      split <;> rfl
    · rw [hec] at he hq
      cases he
      cases hq
      rfl

/-- C106: the implicit Euler solver converges. Let the right-hand side be Lipschitz on a set that contains the exact
solution and the states of the run, and let it be smooth near the solution. Then there are `C` and `h₀` such that in
every run with a step size `h ≤ h₀` all of whose steps succeed, the state differs from the solution at all times by at
most `C (h^p + tol / h)`, where `tol` is the absolute tolerance of the Newton solver, `p = 1`, or `p = 2` for the
implicitness parameter 1/2. -/
theorem C106_converges (M : IMethod D ℝ E) {tl : Nat} (hP : ∀ F, (M.parts F).F = F ∧ SimpleSearch (M.parts F) tl)
    (hec : M.ec = none) {e : E} {n2 n1 : Nat} {f} (hrhs : Computes (M.rhs e) n2 n1 f)
    (hkin : ∀ t x (i : Fin (2 * n2 + n1)) (hi : i.1 < n2), f t x i = x ⟨n2 + i.1, by omega⟩)
    (hord : ∀ o, M.order = some o → IsPerm (n2 + n1) o.1 ∧ IsPerm (n2 + n1) o.2)
    (hpred : ∀ p, M.predictor = some p → ∀ h n t x y, p h n t x = .ok y → x.length = y.length)
    {alpha : ℝ} {p : Nat} (hp : p = 1 ∨ p = 2 ∧ alpha = 1 / 2) {t₀ b : ℝ} {y : ℝ → Fin (2 * n2 + n1) → ℝ}
    {S : Set (Fin (2 * n2 + n1) → ℝ)} {L : ℝ} (hL : 0 ≤ L)
    (hlip : ∀ t ∈ Icc t₀ b, ∀ x ∈ S, ∀ z ∈ S, ‖f t x - f t z‖ ≤ L * ‖x - z‖) (hyS : ∀ t ∈ Icc t₀ b, y t ∈ S)
    (hf : ∀ t ∈ Icc t₀ b, ContDiffAt ℝ (p + 1 : Nat) (fun z : ℝ × (Fin (2 * n2 + n1) → ℝ) => f z.1 z.2) (t, y t))
    (hy : ∀ t ∈ Icc t₀ b, ∀ᶠ r in 𝓝 t, HasDerivAt y (f r (y r)) r) :
    ∃ C, ∃ h₀ > 0, ∀ h, 0 < h → h ≤ h₀ → ∀ tol, 0 ≤ tol → ∀ (N : Nat) (st : Nat → ISolver D ℝ E), (st 0).ec = e →
      (st 0).hInit = h → (st 0).map.alpha = alpha → (st 0).perf.est.absTol = tol → 0 ≤ (st 0).perf.est.relTol →
      (st 0).map.t0 = t₀ → (st 0).map.x0 = List.ofFn (y t₀) →
      (∀ k < N, ∃ tr, (st k).doStep M = .ok (st (k + 1), tr)) → (∀ k ≤ N, fn _ (st k).map.x0 ∈ S) → t₀ + N * h ≤ b →
      ∀ k ≤ N, (st k).map.t0 = t₀ + k * h ∧ ‖fn _ (st k).map.x0 - y (t₀ + k * h)‖ ≤ C * (h ^ p + tol / h) := by
  obtain ⟨r2, r1, hval⟩ := hrhs
  have hwk : Works (M.rhs e) := fun t x hx => ⟨_, hval t x (by rw [hx, r2, r1]), by simp [r2, r1]⟩
  -- the defect of the solution
  have hp1 : 1 ≤ p := by omega
  have hyc : ∀ t ∈ Icc t₀ b, ContDiffAt ℝ (p + 1 : Nat) y t := fun t ht => RK.solution_contDiffAt (hf t ht) (hy t ht)
  obtain ⟨Md, hMd, r, hr, hdef⟩ := uniform_compact (p + 1)
    (fun z : ℝ × ℝ => y z.1 + z.2 • ((1 - alpha) • f z.1 (y z.1) + alpha • f (z.1 + z.2) (y (z.1 + z.2))) - y (z.1 + z.2))
    t₀ b (fun t ht => by
      have p1 : ContDiffAt ℝ (p + 1 : Nat) (fun z : ℝ × ℝ => z.1) (t, 0) := contDiffAt_fst
      have p2 : ContDiffAt ℝ (p + 1 : Nat) (fun z : ℝ × ℝ => z.2) (t, 0) := contDiffAt_snd
      have c1 : ContDiffAt ℝ (p + 1 : Nat) (fun z : ℝ × ℝ => y z.1) (t, 0) :=
        ContDiffAt.comp (g := y) (f := fun z : ℝ × ℝ => z.1) (t, (0:ℝ)) (hyc t ht) p1
      have c2 : ContDiffAt ℝ (p + 1 : Nat) (fun z : ℝ × ℝ => y (z.1 + z.2)) (t, 0) :=
        ContDiffAt.comp (g := y) (f := fun z : ℝ × ℝ => z.1 + z.2) (t, (0:ℝ)) (by simpa using hyc t ht) (p1.add p2)
      have c3 : ContDiffAt ℝ (p + 1 : Nat) (fun z : ℝ × ℝ => f z.1 (y z.1)) (t, 0) :=
        ContDiffAt.comp (g := fun z : ℝ × (Fin (2 * n2 + n1) → ℝ) => f z.1 z.2) (f := fun z : ℝ × ℝ => (z.1, y z.1))
          (t, (0:ℝ)) (hf t ht) (p1.prodMk c1)
      have c4 : ContDiffAt ℝ (p + 1 : Nat) (fun z : ℝ × ℝ => f (z.1 + z.2) (y (z.1 + z.2))) (t, 0) :=
        ContDiffAt.comp (g := fun z : ℝ × (Fin (2 * n2 + n1) → ℝ) => f z.1 z.2)
          (f := fun z : ℝ × ℝ => (z.1 + z.2, y (z.1 + z.2)))
          (t, (0:ℝ)) (by simpa using hf t ht) ((p1.add p2).prodMk c2)
      have c5 : ContDiffAt ℝ (p + 1 : Nat) (fun z : ℝ × ℝ =>
          (1 - alpha) • f z.1 (y z.1) + alpha • f (z.1 + z.2) (y (z.1 + z.2))) (t, 0) :=
        (c3.const_smul (1 - alpha)).add (c4.const_smul alpha)
      exact (c1.add (p2.smul c5)).sub c2)
    (fun t ht => by
      obtain ⟨d1, d2⟩ := defect_order alpha ((hf t ht).of_le (by norm_cast; omega)) (hy t ht)
      rcases hp with rfl | ⟨rfl, ha⟩
      · exact d1.mono nhdsWithin_le_nhds
      · exact (d2 ha).mono nhdsWithin_le_nhds)
  by_cases hb0 : b < t₀
  · refine ⟨0, 1, one_pos, fun h hh _ tol _ N st _ _ _ _ _ _ _ _ _ hN => ?_⟩
    have : 0 ≤ (N : ℝ) * h := by positivity
    linarith
  have hb0 : 0 ≤ b - t₀ := by linarith [not_lt.1 hb0]
  set Q := 2 * L * (|alpha| + |1 - alpha|) with hQ
  have hQ0 : 0 ≤ Q := by positivity
  refine ⟨(b - t₀) * (2 * (Md + 1)) * Real.exp ((b - t₀) * Q), min r (1 / (2 * (|alpha| * L) + 1)), by positivity,
    fun h hpos hle tol htol N st s1 s2 s3 s4 s5 s6 s7 hst hS hN => ?_⟩
  have hle1 : h ≤ r := hle.trans (min_le_left _ _)
  have hsmall : 2 * (h * (|alpha| * L)) ≤ 1 := by
    have h1 : h ≤ 1 / (2 * (|alpha| * L) + 1) := hle.trans (min_le_right _ _)
    have h2 : 0 < 2 * (|alpha| * L) + 1 := by positivity
    rw [le_div_iff₀ h2] at h1
    nlinarith
  -- what the run keeps
  have hk : ∀ k ≤ N, (st k).ec = e ∧ (st k).hInit = h ∧ (st k).map.alpha = alpha ∧ (st k).perf.est.absTol = tol ∧
      0 ≤ (st k).perf.est.relTol ∧ (st k).map.t0 = t₀ + k * h ∧ (st k).map.x0.length = 2 * n2 + n1 ∧
      (k < N → Solves (M.rhs e) alpha h (t₀ + k * h) tol (st k).map.x0 (st (k + 1)).map.x0) := by
    have main : ∀ k < N, (st k).ec = e ∧ (st k).hInit = h ∧ (st k).map.alpha = alpha ∧ (st k).perf.est.absTol = tol ∧
        0 ≤ (st k).perf.est.relTol ∧ (st k).map.t0 = t₀ + k * h ∧ (st k).map.x0.length = 2 * n2 + n1 →
        ((st (k + 1)).ec = e ∧ (st (k + 1)).hInit = h ∧ (st (k + 1)).map.alpha = alpha ∧
          (st (k + 1)).perf.est.absTol = tol ∧ 0 ≤ (st (k + 1)).perf.est.relTol ∧
          (st (k + 1)).map.t0 = t₀ + (k + 1 : Nat) * h ∧ (st (k + 1)).map.x0.length = 2 * n2 + n1) ∧
        Solves (M.rhs e) alpha h (t₀ + k * h) tol (st k).map.x0 (st (k + 1)).map.x0 := by
      rintro k hk ⟨a1, a2, a3, a4, a5, a6, a7⟩
      obtain ⟨tr, hs⟩ := hst k hk
      obtain ⟨b1, b2, b3, b4, b5⟩ := step_keeps M hs
      obtain ⟨X1, c1, c2, -⟩ := C35_step M hP hs (by rw [a1]; exact hwk) (by rw [a1, r2, r1]; exact a7)
        (by rw [a1, r2, r1]; exact hord) hpred (by rw [a4]; exact htol) a5
      obtain ⟨c3, c4, -⟩ := c2 hec
      rw [← c3, a1, a2, a3, a4, a6] at c1
      refine ⟨⟨(b5 hec).trans a1, b1.trans a2, b2.trans a3, b3.trans a4, by rw [b4]; exact a5, ?_, ?_⟩, c1⟩
      · rw [c4, a6, a2]
        push_cast
        ring
      · rw [c1.1, r2, r1]
    have base : ∀ k ≤ N, (st k).ec = e ∧ (st k).hInit = h ∧ (st k).map.alpha = alpha ∧ (st k).perf.est.absTol = tol ∧
        0 ≤ (st k).perf.est.relTol ∧ (st k).map.t0 = t₀ + k * h ∧ (st k).map.x0.length = 2 * n2 + n1 := by
      intro k
      induction k with
      | zero => intro _; exact ⟨s1, s2, s3, s4, s5, by rw [s6]; simp, by rw [s7]; simp⟩
      | succ k ih => intro hk; exact (main k (by omega) (ih (by omega))).1
    intro k hk
    obtain ⟨a1, a2, a3, a4, a5, a6, a7⟩ := base k hk
    exact ⟨a1, a2, a3, a4, a5, a6, a7, fun hlt => (main k hlt ⟨a1, a2, a3, a4, a5, a6, a7⟩).2⟩
  have hmem : ∀ k ≤ N, t₀ + (k : ℝ) * h ∈ Icc t₀ b := by
    intro k hk
    have h1 : (k : ℝ) * h ≤ N * h := mul_le_mul_of_nonneg_right (by exact_mod_cast hk) hpos.le
    have h2 : 0 ≤ (k : ℝ) * h := by positivity
    exact ⟨by linarith, by linarith⟩
  have hstep : ∀ k < N, ‖fn _ (st (k + 1)).map.x0 - y (t₀ + (k + 1 : Nat) * h)‖ ≤
      (1 + h * Q) * ‖fn _ (st k).map.x0 - y (t₀ + k * h)‖ + 2 * (tol + Md * h ^ (p + 1)) := by
    intro k hlt
    obtain ⟨-, -, -, -, -, -, a7, a8⟩ := hk k hlt.le
    obtain ⟨-, -, -, -, -, -, b7, -⟩ := hk (k + 1) hlt
    obtain ⟨-, f0, f1, g0, g1, g2, g3⟩ := a8 hlt
    rw [hval _ _ a7] at g0
    cases g0
    rw [hval _ _ b7] at g1
    cases g1
    have ht1 : t₀ + ((k + 1 : Nat) : ℝ) * h = t₀ + k * h + h := by push_cast; ring
    rw [r2] at g2 g3
    rw [r1] at g3
    have gd : ∀ (v : Fin (2 * n2 + n1) → ℝ) (i : Fin (2 * n2 + n1)), (List.ofFn v).getD (i : Nat) 0 = v i :=
      fun v i => congrFun (fn_ofFn v) i
    refine alpha_step (f0 := f (t₀ + k * h) (fn _ (st k).map.x0))
      (f1 := f (t₀ + k * h + h) (fn _ (st (k + 1)).map.x0)) hpos.le hL hsmall ?_ ?_
      (hlip _ (hmem k hlt.le) _ (hS k hlt.le) _ (hyS _ (hmem k hlt.le))) (by
        have := hlip _ (hmem (k + 1) hlt) _ (hS (k + 1) hlt) _ (hyS _ (hmem (k + 1) hlt))
        rw [ht1] at this
        rw [ht1]
        exact this)
    · rw [pi_norm_le_iff_of_nonneg htol]
      intro i
      rw [Real.norm_eq_abs]
      simp only [Pi.sub_apply, Pi.add_apply, Pi.smul_apply, smul_eq_mul]
      by_cases hi : i.1 < n2
      · have := g2 i.1 hi
        rw [hkin _ _ _ hi, hkin _ _ _ hi]
        have e1 : fn (2 * n2 + n1) (st (k + 1)).map.x0 i - (fn (2 * n2 + n1) (st k).map.x0 i + h *
            ((1 - alpha) * fn (2 * n2 + n1) (st k).map.x0 ⟨n2 + i.1, by omega⟩ +
              alpha * fn (2 * n2 + n1) (st (k + 1)).map.x0 ⟨n2 + i.1, by omega⟩)) = 0 := by
          show (st (k + 1)).map.x0.getD i.1 0 - ((st k).map.x0.getD i.1 0 + h *
            ((1 - alpha) * (st k).map.x0.getD (n2 + i.1) 0 + alpha * (st (k + 1)).map.x0.getD (n2 + i.1) 0)) = 0
          linarith
        rw [e1, abs_zero]
        exact htol
      · have := g3 i.1 (by omega) i.2
        rw [gd, gd] at this
        exact this
    · have := hdef _ (hmem k hlt.le) h hpos.le hle1
      dsimp only at this
      rw [ht1]
      exact this
  have hδ : 0 ≤ 2 * (tol + Md * h ^ (p + 1)) := by positivity
  have hg := growth (e := fun k => ‖fn (2 * n2 + n1) (st k).map.x0 - y (t₀ + k * h)‖) (q := h * Q) (by positivity) hδ
    (by simp [s7, fn_ofFn]) hstep
  intro k hkN
  refine ⟨(hk k hkN).2.2.2.2.2.1, (hg k hkN).trans ?_⟩
  have hkb : (k : ℝ) * h ≤ b - t₀ := by have := (hmem k hkN).2; linarith
  have e1 : Real.exp (k * (h * Q)) ≤ Real.exp ((b - t₀) * Q) := by
    apply Real.exp_le_exp.2
    rw [← mul_assoc]
    exact mul_le_mul_of_nonneg_right hkb hQ0
  have e2 : (k : ℝ) * (2 * (tol + Md * h ^ (p + 1))) ≤ (b - t₀) * (2 * (Md + 1)) * (h ^ p + tol / h) := by
    have h1 : (k : ℝ) * (2 * (tol + Md * h ^ (p + 1))) = k * h * (2 * (tol / h + Md * h ^ p)) := by
      field_simp
      ring
    rw [h1, mul_assoc (b - t₀)]
    have h2 : 0 ≤ tol / h := by positivity
    have h3 : 0 ≤ h ^ p := by positivity
    have h4 : 2 * (tol / h + Md * h ^ p) ≤ 2 * (Md + 1) * (h ^ p + tol / h) := by nlinarith
    exact mul_le_mul hkb h4 (by positivity) hb0
  calc (k : ℝ) * (2 * (tol + Md * h ^ (p + 1))) * Real.exp (k * (h * Q))
      ≤ (b - t₀) * (2 * (Md + 1)) * (h ^ p + tol / h) * Real.exp ((b - t₀) * Q) :=
        mul_le_mul e2 e1 (Real.exp_pos _).le (by positivity)
    _ = _ := by ring

end

end Verif.Implicit
