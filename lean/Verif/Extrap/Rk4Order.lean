import Verif.Extrap.Converge
import Verif.TestModels.OscProps
import Mathlib.Analysis.Complex.Exponential

/-! # Extrapolation of a reference solver of order 4 -/

namespace Verif.Extrap

open Verif.Res Verif.RK Filter Topology Asymptotics Set
open scoped BigOperators

/-- The classical Runge-Kutta solver on `x' = x` -/
noncomputable def expRk4 : Method ℝ ℝ Unit := ⟨rk4.cast ℝ, fun _ x => x, none⟩

/-- Its extrapolator with two stages and otherwise as constructed, error check off. -/
noncomputable def exRk4 : ExMethod ℝ ℝ Unit (FixedSt ℝ ℝ Unit) Nat where
  ref := some (expRk4.ref 4)
  seq := some harmonic
  ec := none
  symmetric := false
  disableErrorCheck := true
  maxStages := 2
  hMin := 0
  norm x := |x|
  control h _ _ := ⟨h, true, false⟩

theorem exRk4_sane : Sane exRk4 (expRk4.ref 4) (rkIter ((rk4.cast ℝ).tableau 4) (fun _ x => x)) harmonic harmonicNo
    (2 ^ 31 - 2) := by
  have hpk : (rk4.tableau 4).pack 1 (-1) = rk4 :=
    coefficients_ext (by decide +kernel) (by decide +kernel) (by decide +kernel) rfl
  exact ⟨rfl, rfl, behaves_rk _ expRk4 4 (by decide) rfl (cast_pack hpk).symm rfl, gives_harmonic, by decide,
    Or.inl rfl, by decide⟩

/-- Growth factor of one step -/
noncomputable def growth4 (h : ℝ) : ℝ :=
  2 * (1 + h / 2 + h ^ 2 / 8 + h ^ 3 / 48 + h ^ 4 / 384) ^ 2 - (1 + h + h ^ 2 / 2 + h ^ 3 / 6 + h ^ 4 / 24)

theorem rk4_factor (t h x : ℝ) : ((rk4.cast ℝ).tableau 4).output (fun _ x => x) t h x 0
    = (1 + h + h ^ 2 / 2 + h ^ 3 / 6 + h ^ 4 / 24) * x := by
  obtain ⟨k1, k2, k3, k4, e1, e2, e3, e4, e5⟩ := TestModels.rk4_output (V := ℝ) (fun _ x => x) t h x
  simp only [smul_eq_mul] at e1 e2 e3 e4 e5
  rw [e5, e4, e3, e2, e1]
  ring

theorem exRk4_value (t x h : ℝ) :
    extrapolated false harmonicNo (rkIter ((rk4.cast ℝ).tableau 4) (fun _ x => x)) 0 2 t x h = growth4 h * x := by
  have hinj := node_inj false harmonicNo harmonicNo_strictMono (by decide) (Finset.Ico 0 2)
  obtain ⟨P, hP⟩ : ∃ P : ℝ → ℝ, P = fun h => 1 + h + h ^ 2 / 2 + h ^ 3 / 6 + h ^ 4 / 24 := ⟨_, rfl⟩
  have := extrap_poly (Finset.Ico 0 2) (fun m => (node false (harmonicNo m) : ℝ)) hinj
    (fun j => if j = 0 then growth4 h * x else 2 * (P h - P (h / 2) ^ 2) * x)
    2 (by decide) (by decide)
  rw [if_pos rfl] at this
  rw [← this]
  unfold extrapolated
  apply extrap_congr
  intro m hm
  rw [Finset.mem_Ico] at hm
  have hm' : m = 0 ∨ m = 1 := by omega
  rw [Finset.sum_range_succ, Finset.sum_range_succ, Finset.sum_range_zero]
  rcases hm' with rfl | rfl
  · simp [rkIter, harmonicNo, node, rk4_factor, growth4, hP]
    ring
  · simp [rkIter, harmonicNo, node, rk4_factor, growth4, hP]
    ring

/-- The error of a step is of order five, with a positive constant. -/
theorem growth_gap {h : ℝ} (h0 : 0 ≤ h) (h1 : h ≤ 1) : Real.exp h + 9 / 1600 * h ^ 5 ≤ growth4 h := by
  have := Real.exp_bound' h0 h1 (n := 5) (by norm_num)
  simp only [Finset.sum_range_succ, Finset.sum_range_zero, Nat.factorial] at this
  unfold growth4
  have e : 0 ≤ h ^ 6 * (2 / 1152 + 2 * 2 / (8 * 384) + 2 * 2 * h / (48 * 384) + 2 * h ^ 2 / (384 * 384)) := by positivity
  norm_num at this ⊢
  nlinarith [this, e, pow_nonneg h0 6, pow_nonneg h0 7, pow_nonneg h0 8]

/-- C78 is false for the default flag and the classical Runge-Kutta method with two stages: order 5 is reported, and
the order is 4. -/
theorem C78_rk4_false : exRk4.order = 5 ∧ ¬ ExHasOrder exRk4 (fun _ x => x) (Fits harmonicNo 2) 5 := by
  refine ⟨by unfold ExMethod.order exRk4; decide, fun hord => ?_⟩
  obtain ⟨X, hX, hstep⟩ := hord 0 1 contDiffAt_snd Real.exp Real.exp_zero
    (Filter.Eventually.of_forall (fun t => Real.hasDerivAt_exp t))
  have hval : ∀ h, X h = growth4 h := by
    intro h
    obtain ⟨s, s', _, k2, k3, k4, k5, k6, k7⟩ := C78_steps exRk4_sane rfl rfl 0 h 1
      ⟨0, 0, none, [], [], 0, ⟨0, 0, none, Output.mkEmpty, 0, (), []⟩, 1, (), []⟩
    have := hstep s s' 1 k4 k2 k3 k5
    rw [k6, k2, zero_add, sub_zero] at this
    rw [← this, k7]
    exact (exRk4_value 0 1 h).trans (mul_one _)
  obtain ⟨c, hc⟩ := hX.bound
  obtain ⟨ε, hε, hball⟩ := Metric.eventually_nhds_iff_ball.1 hc
  obtain ⟨d, hd⟩ : ∃ d, d = min (min (ε / 2) 1) (9 / 1600 / (2 * (|c| + 1))) := ⟨_, rfl⟩
  have hd0 : 0 < d := by rw [hd]; positivity
  have hd1 : d ≤ 1 := by rw [hd]; exact (min_le_left _ _).trans (min_le_right _ _)
  have hdb : d ∈ Metric.ball (0 : ℝ) ε := by
    rw [Metric.mem_ball, dist_zero_right, Real.norm_eq_abs, abs_of_pos hd0, hd]
    exact lt_of_le_of_lt ((min_le_left _ _).trans (min_le_left _ _)) (by linarith)
  have h1 := hball d hdb
  rw [hval, zero_add, Real.norm_eq_abs, Real.norm_eq_abs, abs_of_pos (pow_pos hd0 6)] at h1
  have h2 := growth_gap hd0.le hd1
  have h3 : 9 / 1600 * d ^ 5 ≤ c * d ^ 6 := by
    have := le_abs_self (growth4 d - Real.exp d)
    linarith
  have h4 : c * d ^ 6 ≤ d ^ 5 * (d * (|c| + 1)) := by
    have : c ≤ |c| + 1 := (le_abs_self c).trans (by linarith)
    calc c * d ^ 6 ≤ (|c| + 1) * d ^ 6 := by gcongr
      _ = _ := by ring
  have h5 : d * (|c| + 1) ≤ 9 / 3200 := by
    have : d ≤ 9 / 1600 / (2 * (|c| + 1)) := by rw [hd]; exact min_le_right _ _
    calc d * (|c| + 1) ≤ 9 / 1600 / (2 * (|c| + 1)) * (|c| + 1) := by gcongr
      _ = 9 / 3200 := by field_simp; norm_num
  have h6 : 0 < d ^ 5 := by positivity
  nlinarith

/-- C114 is false for the order reported: the extrapolator of the classical Runge-Kutta method with two stages and
the default flag reports order 5 and does not converge with order 5, but with order 4. -/
theorem C114_false : exRk4.order = 5 ∧ ¬ ExConverges exRk4 (fun _ x => x) (Fits harmonicNo 2) 5 ∧
    ExConverges exRk4 (fun _ x => x) (Fits harmonicNo 2) 4 := by
  refine ⟨C78_rk4_false.1, fun hconv => ?_, C114_rk4 expRk4 rfl rfl exRk4 rfl rfl harmonic rfl harmonicNo (2 ^ 31 - 2)
    gives_harmonic (by decide) (Or.inl rfl) (by decide)⟩
  obtain ⟨C, h₀, hh₀, key⟩ := hconv Real.exp 0 1 (fun t _ => contDiffAt_snd)
    (fun t _ => Filter.Eventually.of_forall (fun t => Real.hasDerivAt_exp t))
  obtain ⟨n, hn⟩ := exists_nat_gt (max (1 / h₀) (1600 / 9 * (|C| + 1)))
  have hn1 : 1 / h₀ < n := (le_max_left _ _).trans_lt hn
  have hn2 : 1600 / 9 * (|C| + 1) < n := (le_max_right _ _).trans_lt hn
  have hn0 : (0 : ℝ) < n := lt_trans (by positivity) hn1
  have hN : 0 < n := by exact_mod_cast hn0
  obtain ⟨h, hh⟩ : ∃ h : ℝ, h = 1 / n := ⟨_, rfl⟩
  have hpos : 0 < h := by rw [hh]; positivity
  have hle1 : h ≤ 1 := by
    rw [hh, div_le_one hn0]
    exact_mod_cast hN
  have hnh : (n : ℝ) * h = 1 := by rw [hh]; field_simp
  obtain ⟨st, _, g2, g3, g4⟩ := C114_steps exRk4_sane rfl rfl 0 h 1
    ⟨0, 0, none, [], [], 0, ⟨0, 0, none, Output.mkEmpty, 0, (), []⟩, 1, (), []⟩
  have hfit : ∀ k, Fits harmonicNo 2 (st k) := by
    intro k
    induction k with
    | zero => exact g2
    | succ k ih =>
      obtain ⟨A, a1, a2, _⟩ := doStep_ok exRk4_sane rfl 1 _ ih _ (g4 k).2
      cases a1
      exact a2
  have hx : ∀ k : Nat, (st k).x = growth4 h ^ k := by
    intro k
    induction k with
    | zero => rw [g3, pow_zero]
    | succ k ih =>
      obtain ⟨A, a1, _, a3⟩ := doStep_ok exRk4_sane rfl 1 _ (hfit k) _ (g4 k).2
      cases a1
      have e : (st (k + 1)).t - (st k).t = h := by
        rw [(g4 (k + 1)).1, (g4 k).1]
        push_cast
        ring
      rw [a3 _ rfl, e, pow_succ, mul_comm, ← ih]
      exact exRk4_value _ _ _
  have htle : ∀ k ≤ n, (st k).t ≤ 1 := by
    intro k hk
    rw [(g4 k).1, zero_add, ← hnh]
    exact mul_le_mul_of_nonneg_right (by exact_mod_cast hk) hpos.le
  have := key h hpos.le (by rw [hh, div_le_iff₀ hn0, ← div_le_iff₀' hh₀]; exact hn1.le) n st g2 (by simpa using (g4 0).1)
    (by rw [g3, Real.exp_zero]) (fun k _ => ⟨1, (g4 k).2⟩)
    (fun k _ => by
      rw [(g4 (k + 1)).1, (g4 k).1]
      push_cast
      constructor <;> linarith) htle n (le_refl n)
  rw [hx n, (g4 n).1, zero_add, hnh, Real.norm_eq_abs] at this
  have hgap := growth_gap hpos.le hle1
  -- the error grows at least linearly
  have hlow : ∀ k : Nat, Real.exp (k * h) + k * (9 / 1600 * h ^ 5) ≤ growth4 h ^ k := by
    intro k
    induction k with
    | zero => simp
    | succ k ih =>
      have e1 : 1 ≤ Real.exp h := Real.one_le_exp hpos.le
      have e2 : 1 ≤ Real.exp (k * h) := Real.one_le_exp (by positivity)
      have e3 : Real.exp ((k + 1 : Nat) * h) = Real.exp (k * h) * Real.exp h := by
        rw [← Real.exp_add]; congr 1; push_cast; ring
      have e4 : 0 ≤ 9 / 1600 * h ^ 5 := by positivity
      have e5 : (0 : ℝ) ≤ k * (9 / 1600 * h ^ 5) := by positivity
      rw [pow_succ, e3]
      calc Real.exp (k * h) * Real.exp h + ((k + 1 : Nat) : ℝ) * (9 / 1600 * h ^ 5)
          ≤ (Real.exp (k * h) + k * (9 / 1600 * h ^ 5)) * (Real.exp h + 9 / 1600 * h ^ 5) := by
            push_cast
            nlinarith [mul_nonneg e5 e4, mul_le_mul_of_nonneg_left e1 e5, mul_le_mul_of_nonneg_right e2 e4]
        _ ≤ growth4 h ^ k * growth4 h := mul_le_mul ih hgap (by positivity) (by
            exact pow_nonneg (le_trans (by positivity) hgap) _)
  have hl := hlow n
  rw [hnh] at hl
  have h7 : 9 / 1600 * h ^ 4 ≤ C * h ^ 5 := by
    have a := le_abs_self (growth4 h ^ n - Real.exp 1)
    have b : (n : ℝ) * (9 / 1600 * h ^ 5) = 9 / 1600 * h ^ 4 * (n * h) := by ring
    rw [b, hnh, mul_one] at hl
    linarith
  have h8 : 9 / 1600 ≤ C * h := by
    have : 0 < h ^ 4 := by positivity
    have e : C * h ^ 5 = C * h * h ^ 4 := by ring
    rw [e] at h7
    exact le_of_mul_le_mul_right h7 this
  have h9 : C * h ≤ (|C| + 1) * h := mul_le_mul_of_nonneg_right ((le_abs_self C).trans (by linarith)) hpos.le
  have h10 : (|C| + 1) * h < 9 / 1600 := by
    rw [hh, mul_one_div, div_lt_iff₀ hn0]
    linarith
  linarith

end Verif.Extrap
