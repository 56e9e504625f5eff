import Verif.Driver.AccuracyProps
import Verif.RK.Tolerance
import Mathlib.MeasureTheory.Integral.IntervalIntegral.FundThmCalculus

/-! # C130: what the tolerance says about the error of a run

The user sets a tolerance and expects the samples of a run to be as accurate as that. -/

namespace Verif.Driver

open Verif.Res Verif.RK Filter Topology Set

/-- The error of a run with the simple step size controller is bounded by the tolerance times the number of accepted steps, and
a term of the higher order `q` in the largest step. The constant does not depend on the solver's settings: not on the tolerance,
the other parameters of the controller, the mode, nor on the run. The norm used by the solver must bound the vector. -/
def ToleranceRuns (co : Coefficients ℚ) (q : Nat) : Prop :=
  ∀ {E : Type} [NormedAddCommGroup E] [NormedSpace ℝ E] [CompleteSpace E] (f : ℝ → E → E) (y : ℝ → E) (t₀ b κ : ℝ) (lo : Nat)
    (_ : 0 ≤ κ)
    (_ : ∀ t ∈ Icc t₀ b, ContDiffAt ℝ (q + 1 : Nat) (fun z : ℝ × E => f z.1 z.2) (t, y t))
    (_ : ∀ t ∈ Icc t₀ b, ∀ᶠ s in 𝓝 t, HasDerivAt y (f s (y s)) s),
    ∃ C : ℝ, ∃ h₀ > (0 : ℝ), ∀ {Q : Type} (m : EmbMethod ℝ E Q) (_ : m.co = co.cast ℝ) (_ : m.rhs = f)
      (_ : m.disableErrorCheck = false) (_ : m.lowOrder = lo) (I : Q → Prop) (_ : Quiet m.ec I) (ctl : CtlParams ℝ)
      (_ : SimpleControl m ctl) (_ : ∀ v, ‖v‖ ≤ κ * m.norm v) (H : ℝ), 0 ≤ H → H ≤ h₀ →
      ∀ (c : Outputs) (_ : c.Start) (d : ℝ) (fuel j : Nat) (s s' : FixedSt ℝ E Q) (evs : List (Ev ℝ E)),
      s.t = t₀ → s.x = y t₀ → s.out = Output.mkEmpty → I s.ec → solveOde (emb m j) c d fuel s = some (evs, .ok s') →
      List.IsChain (fun a b => a ≤ b ∧ b ≤ a + H) (s.t :: (accepted evs).map (·.time)) → s'.t ≤ b →
      (accepted evs).length * ctl.tolerance ≤ h₀ →
      Close (emb m j) id y (C * (H ^ q + (accepted evs).length * ctl.tolerance)) evs s'

theorem tolerance_runs {co : Coefficients ℚ} {s q : Nat} (hs : 1 ≤ s) {l : Int}
    (hpk : (co.tableau s).pack 2 l = co) (hl : ∀ ix : Nat, ix < 2 → (ix : Int) = l →
      2 ≤ s ∧ (∀ j, j < s - 1 → co.A (s - 1) j = co.B s ix j) ∧ co.B s ix (s - 1) = 0)
    (hr : RowCheck co s = true) (hc : OrderCheck co s 0 q = true) (hq : 1 ≤ q) : ToleranceRuns co q := by
  intro E _ _ _ f y t₀ b κ lo hκ hf hy
  obtain ⟨C, hC, h₀, hh₀, key⟩ := variable_perturbed q hq (fun t x h => ∑ i ∈ Finset.range s,
    ((co.cast ℝ).tableau s).b 0 i • ((co.cast ℝ).tableau s).stage f t h x i) y t₀ b
    (fun t ht => incr_contDiffAt ((co.cast ℝ).tableau s) (hf t ht) 0)
    (fun t ht => solution_contDiffAt (hf t ht) (hy t ht)) (fun t ht => coded_local hr hc hq f t y (hf t ht) (hy t ht))
  have hg : (0 : ℝ) < (1 - geomEps) ^ (lo + 1) := pow_pos (by linarith [geomEps_lt (K := ℝ)]) _
  set A := κ / (1 - geomEps) ^ (lo + 1) with hA
  have hA0 : 0 ≤ A := div_nonneg hκ hg.le
  refine ⟨C * (1 + A), min h₀ (h₀ / (A + 1)), by positivity, ?_⟩
  intro Q m hm hrhs hd hlo I hqt ctl hctl hn H hH hle c hc d fuel j s₀ s' evs s1 s2 s3 s4 h hch hb hN
  obtain ⟨N, st, a1, -, a2, a3, a4, -, -, a5, -, a6, a7⟩ := run_close (emb_tells m j) (view := id) (y := y) hc rfl h (H := H)
  have a5 := a5 hch
  have hu := uses_of_cast hs hpk hl m hm
  have htol := hctl.tol
  have inv : ∀ k ≤ N, Ready ((co.cast ℝ).tableau s) (st k) ∧ I (st k).ec := by
    intro k
    induction k with
    | zero => intro _; rw [a2]; exact ⟨.inl (by rw [s3]; rfl), s4⟩
    | succ k ih =>
      intro hk
      obtain ⟨ih1, ih2⟩ := ih (by omega)
      obtain ⟨ns, b1, -⟩ := a4 k (by omega)
      have hfu := emb_doStep b1
      obtain ⟨_, _, _, _, a3, _⟩ := C30_doStep m _ hu j (st k) ih1 _ hfu
      obtain ⟨_, _, _, _, _, _, _, _, a9⟩ := C30_quiet m _ hu I hqt j (st k) (st (k + 1)) ih2 ih1 hfu
      exact ⟨a3, a9⟩
  rw [a7] at hN ⊢
  have hNt : 0 ≤ (N : ℝ) * ctl.tolerance := by positivity
  have hNA : (N : ℝ) * (A * ctl.tolerance) ≤ h₀ := by
    have h1 := hN.trans (min_le_right _ _)
    calc (N : ℝ) * (A * ctl.tolerance) = A * (N * ctl.tolerance) := by ring
      _ ≤ A * (h₀ / (A + 1)) := mul_le_mul_of_nonneg_left h1 hA0
      _ = h₀ * (A / (A + 1)) := by ring
      _ ≤ h₀ * 1 := by
          refine mul_le_mul_of_nonneg_left ?_ hh₀.le
          rw [div_le_one (by linarith)]
          linarith
      _ = h₀ := mul_one _
  refine a6 _ (fun k hk => ?_)
  refine (key H hH (hle.trans (min_le_left _ _)) (A * ctl.tolerance) (by positivity) N (fun k => (st k).x) (fun k => (st k).t)
    (fun k => (st (k + 1)).t - (st k).t) hNA (by simp only [a2, s2]) (by simp only [a2, s1]) ?_ ?_ k hk).trans ?_
  · intro k hk
    obtain ⟨b1, b2⟩ := a5 k hk
    obtain ⟨c1, c2⟩ := inv k (by omega)
    obtain ⟨ns, b3, -⟩ := a4 k hk
    obtain ⟨_, h, _, _, e4, e5, e6, _, _⟩ := C30_quiet m _ hu I hqt j (st k) (st (k + 1)) c2 c1 (emb_doStep b3)
    replace b1 : (st k).t ≤ (st (k + 1)).t := b1
    replace b2 : (st (k + 1)).t ≤ (st k).t + H := b2
    refine ⟨by linarith, by linarith, by ring, ?_⟩
    have e : (st (k + 1)).t - (st k).t = h := by rw [e5]; ring
    rw [e, e6]
    have := accepted_near hctl hd hκ hn e4
    rw [hlo] at this
    rw [hrhs] at this ⊢
    refine this.trans (le_of_eq ?_)
    rw [hA]; ring
  · intro k hk
    refine (monotone_le (τ := fun k => (st k).t) (fun k hk => (a5 k hk).1) hk).trans ?_
    rw [a3]
    exact hb
  · have hHq : 0 ≤ H ^ q := pow_nonneg hH q
    have e : C * (1 + A) * (H ^ q + N * ctl.tolerance) = C * (H ^ q + N * (A * ctl.tolerance)) +
        C * (A * H ^ q + N * ctl.tolerance) := by ring
    rw [e]
    exact le_add_of_nonneg_right (mul_nonneg hC (add_nonneg (mul_nonneg hA0 hHq) hNt))

/-- C130. DOPRI45 -/
theorem C130_dopri45_partial : ToleranceRuns dopri45 5 :=
  tolerance_runs (co := dopri45) (s := 7) (l := 0) (by decide)
    (coefficients_ext (by decide +kernel) (by decide +kernel) (by decide +kernel) rfl)
    (by decide +kernel) (by decide +kernel) dopri45_high (by decide)

/-- C130. DOPRI56 -/
theorem C130_dopri56_partial : ToleranceRuns dopri56 6 :=
  tolerance_runs (co := dopri56) (s := 8) (l := -1) (by decide)
    (coefficients_ext (by decide +kernel) (by decide +kernel) (by decide +kernel) rfl)
    (by decide +kernel) (by decide +kernel) dopri56_high (by decide)

/-- The same when the controller is given a threshold `H` for the step: nothing has to be known about the run but that it
returns. -/
def ThresholdRuns (co : Coefficients ℚ) (q : Nat) : Prop :=
  ∀ {E : Type} [NormedAddCommGroup E] [NormedSpace ℝ E] [CompleteSpace E] (f : ℝ → E → E) (y : ℝ → E) (t₀ b κ : ℝ) (lo : Nat)
    (_ : 0 ≤ κ)
    (_ : ∀ t ∈ Icc t₀ b, ContDiffAt ℝ (q + 1 : Nat) (fun z : ℝ × E => f z.1 z.2) (t, y t))
    (_ : ∀ t ∈ Icc t₀ b, ∀ᶠ s in 𝓝 t, HasDerivAt y (f s (y s)) s),
    ∃ C : ℝ, ∃ h₀ > (0 : ℝ), ∀ {Q : Type} (m : EmbMethod ℝ E Q) (_ : m.co = co.cast ℝ) (_ : m.rhs = f)
      (_ : m.disableErrorCheck = false) (_ : m.lowOrder = lo) (I : Q → Prop) (_ : Quiet m.ec I) (ctl : CtlParams ℝ)
      (_ : SimpleControl m ctl) (_ : ∀ v, ‖v‖ ≤ κ * m.norm v) (_ : 0 < ctl.incMin) (_ : 0 < ctl.incMax → ctl.incMin ≤ ctl.incMax)
      (_ : 0 < ctl.maxThreshold) (_ : ctl.maxThreshold ≤ h₀)
      (c : Outputs) (_ : c.Start) (d : ℝ) (fuel j : Nat) (s s' : FixedSt ℝ E Q) (evs : List (Ev ℝ E)),
      s.t = t₀ → s.x = y t₀ → s.out = Output.mkEmpty → I s.ec → 0 < s.hInit → s.hInit ≤ ctl.maxThreshold →
      solveOde (emb m j) c d fuel s = some (evs, .ok s') → s'.t ≤ b →
      (accepted evs).length * ctl.tolerance ≤ h₀ →
      Close (emb m j) id y (C * (ctl.maxThreshold ^ q + (accepted evs).length * ctl.tolerance)) evs s'

theorem threshold_runs {co : Coefficients ℚ} {s q : Nat} (hs : 1 ≤ s) {l : Int}
    (hpk : (co.tableau s).pack 2 l = co) (hl : ∀ ix : Nat, ix < 2 → (ix : Int) = l →
      2 ≤ s ∧ (∀ j, j < s - 1 → co.A (s - 1) j = co.B s ix j) ∧ co.B s ix (s - 1) = 0)
    (hT : ToleranceRuns co q) : ThresholdRuns co q := by
  intro E _ _ _ f y t₀ b κ lo hκ hf hy
  obtain ⟨C, h₀, hh₀, key⟩ := hT f y t₀ b κ lo hκ hf hy
  refine ⟨C, h₀, hh₀, ?_⟩
  intro Q m hm hrhs hd hlo I hqt ctl hctl hn hinc hmax hthr hle c hc d fuel j s₀ s' evs s1 s2 s3 s4 s5 s6 h hb hN
  refine key m hm hrhs hd hlo I hqt ctl hctl hn ctl.maxThreshold hthr.le hle c hc d fuel j s₀ s' evs s1 s2 s3 s4 h ?_ hb hN
  obtain ⟨N, st, a1, -, a2, a3, a4, -, -, a5, -⟩ := run_samples (emb_tells m j) c hc d fuel s₀ s' rfl evs h
  have hu := uses_of_cast hs hpk hl m hm
  have inv : ∀ k ≤ N, Ready ((co.cast ℝ).tableau s) (st k) ∧ I (st k).ec ∧
      ∃ h', (st k).stepInUse = some h' ∧ 0 < h' ∧ h' ≤ ctl.maxThreshold := by
    intro k
    induction k with
    | zero =>
      intro _
      rw [a2]
      exact ⟨.inl (by rw [s3]; rfl), s4, s₀.hInit, by unfold FixedSt.stepInUse; rw [s3]; rfl, s5, s6⟩
    | succ k ih =>
      intro hk
      obtain ⟨ih1, ih2, h', ih3, ih4, ih5⟩ := ih (by omega)
      obtain ⟨ns, b1, -⟩ := a4 k (by omega)
      have hfu := emb_doStep b1
      obtain ⟨_, _, _, _, a3, _⟩ := C30_doStep m _ hu j (st k) ih1 _ hfu
      obtain ⟨_, _, _, _, _, _, _, _, a9⟩ := C30_quiet m _ hu I hqt j (st k) (st (k + 1)) ih2 ih1 hfu
      exact ⟨a3, a9, (below_threshold hu hqt hctl hd hinc hmax hthr ih1 ih2 ih3 ih4 ih5 hfu).2.2⟩
  have e : s₀.t :: (accepted evs).map (·.time) = (List.range (N + 1)).map (fun k => (st k).t) := by
    rw [List.range_succ_eq_map, List.map_cons, List.map_map, a2]
    have := congrArg (List.map Prod.fst) a5
    rw [List.map_map, List.map_map] at this
    exact congrArg _ this
  rw [e, List.isChain_map, ← Nat.succ_eq_add_one, List.isChain_range_succ]
  intro k hk
  obtain ⟨ih1, ih2, h', ih3, ih4, ih5⟩ := inv k (by omega)
  obtain ⟨ns, b1, -⟩ := a4 k hk
  obtain ⟨r1, r2, -⟩ := below_threshold hu hqt hctl hd hinc hmax hthr ih1 ih2 ih3 ih4 ih5 (emb_doStep b1)
  exact ⟨r1, r2⟩

/-- C130. DOPRI45 with a threshold for the step -/
theorem C130_dopri45_threshold_partial : ThresholdRuns dopri45 5 :=
  threshold_runs (co := dopri45) (s := 7) (l := 0) (by decide)
    (coefficients_ext (by decide +kernel) (by decide +kernel) (by decide +kernel) rfl)
    (by decide +kernel) C130_dopri45_partial

/-- C130. DOPRI56 with a threshold for the step -/
theorem C130_dopri56_threshold_partial : ThresholdRuns dopri56 6 :=
  threshold_runs (co := dopri56) (s := 8) (l := -1) (by decide)
    (coefficients_ext (by decide +kernel) (by decide +kernel) (by decide +kernel) rfl)
    (by decide +kernel) C130_dopri56_partial

/-- The hypotheses are met by `x' = x²`, `x(0) = 1` on `[0, 1/2]`, with the default parameters of the controller but any tolerance
and any mode: one constant for all tolerances. -/
example : ∃ C : ℝ, ∃ h₀ > (0 : ℝ), ∀ (low : Bool) (tol : ℝ), 0 < tol → ∀ (H : ℝ), 0 ≤ H → H ≤ h₀ →
    ∀ (c : Outputs) (_ : c.Start) (d h : ℝ) (fuel j : Nat) (s' : FixedSt ℝ ℝ Unit) (evs : List (Ev ℝ ℝ)),
    let m : EmbMethod ℝ ℝ Unit := ⟨⟨dopri45.cast ℝ, fun _ x => x ^ 2, none⟩, 5, 4, false, false, 0, low, 0, fun x => |x|,
      fun h err order => CtlParams.control { CtlParams.default with tolerance := tol } (· ^ ·) h err order⟩
    solveOde (emb m j) c d fuel ⟨0, 1, none, Output.mkEmpty, h, (), []⟩ = some (evs, .ok s') →
    List.IsChain (fun a b => a ≤ b ∧ b ≤ a + H) ((0 : ℝ) :: (accepted evs).map (·.time)) → s'.t ≤ 1 / 2 →
    (accepted evs).length * tol ≤ h₀ →
    Close (emb m j) id (fun t => (1 - t)⁻¹) (C * (H ^ 5 + (accepted evs).length * tol)) evs s' := by
  obtain ⟨C, h₀, hh₀, key⟩ := C130_dopri45_partial (fun (_ : ℝ) (x : ℝ) => x ^ 2) (fun t => (1 - t)⁻¹) 0 (1 / 2) 1 4 zero_le_one
    (fun t _ => contDiffAt_snd.pow 2) (fun t ht => by
      have : ∀ᶠ s in 𝓝 t, s < 1 := gt_mem_nhds (by linarith [ht.2])
      filter_upwards [this] with s hs
      have hne : (1 - s) ≠ 0 := by linarith
      have := HasDerivAt.fun_inv ((hasDerivAt_id s).const_sub 1) hne
      simp only [id] at this
      have e : - -1 / (1 - s) ^ 2 = ((1 - s)⁻¹) ^ 2 := by simp
      rw [e] at this
      exact this)
  refine ⟨C, h₀, hh₀, fun low tol htol H hH hle c hc d h fuel j s' evs => ?_⟩
  intro m hrun hch hb hN
  exact key m rfl rfl rfl rfl (fun _ => True)
    ⟨fun c hc => by simp [m] at hc, fun c hc => by simp [m] at hc, fun c hc => by simp [m] at hc⟩
    { CtlParams.default with tolerance := tol }
    ⟨rfl, fun v => abs_nonneg v, htol, by norm_num [CtlParams.default], by norm_num [CtlParams.default],
      by norm_num [CtlParams.default]⟩
    (fun v => by simp [m]) H hH hle c hc d fuel j _ s' evs rfl (by simp) rfl trivial hrun hch hb hN

/-! ### A tolerance alone says nothing -/

/-- A function that vanishes at all times where DOPRI45 looks at it in a step from 0 to 1. -/
noncomputable def unseen (t : ℝ) : ℝ := (t * (t - 1 / 5) * (t - 3 / 10) * (t - 4 / 5) * (t - 8 / 9) * (t - 1)) ^ 2

theorem unseen_smooth : ContDiff ℝ (⊤ : ℕ∞) unseen := by
  unfold unseen
  fun_prop

theorem unseen_pos : 0 < ∫ t in (0 : ℝ)..1, unseen t :=
  intervalIntegral.integral_pos one_pos unseen_smooth.continuous.continuousOn (fun t _ => sq_nonneg _)
    ⟨1 / 2, by norm_num, by unfold unseen; norm_num⟩

theorem unseen_stage {i : Nat} (hi : i < 7) : unseen ((dopri45.cast ℝ).C i) = 0 := by
  have h : ∀ i < 7, dopri45.C i ∈ ([0, 1 / 5, 3 / 10, 4 / 5, 8 / 9, 1] : List ℚ) := by decide +kernel
  have := h i hi
  rw [cast_C]
  simp only [List.mem_cons, List.not_mem_nil, or_false] at this
  rcases this with e | e | e | e | e | e <;> rw [e] <;> unfold unseen <;> norm_num

/-- C130 fails without a bound on the step: whatever the parameters of the controller are, the tolerance among them, and however
large an error is asked for, there is a smooth right-hand side (not even depending on the state) for which `solveOde` from 0 to 1
with DOPRI45 returns after one step, with a zero error estimate and at least this error. -/
theorem C130_tolerance_false (ctl : CtlParams ℝ) (pow : ℝ → ℝ → ℝ) (B : ℝ) :
    ∃ g y : ℝ → ℝ, ContDiff ℝ (⊤ : ℕ∞) g ∧ (∀ t, HasDerivAt y (g t) t) ∧
      ∀ (m : EmbMethod ℝ ℝ Unit), m.co = dopri45.cast ℝ → (m.rhs = fun t _ => g t) → m.ec = none →
        (m.control = fun h err order => ctl.control pow h err order) → m.norm = (|·|) →
        ∀ (c : Outputs), c.Start → ∃ evs s', solveOde (emb m 1) c 1 1 ⟨0, y 0, none, Output.mkEmpty, 1, (), []⟩ =
          some (evs, .ok s') ∧ s'.t = 1 ∧ B ≤ |s'.x - y 1| := by
  have hpos := unseen_pos
  set J := ∫ t in (0 : ℝ)..1, unseen t with hJ
  have hsm : ContDiff ℝ (⊤ : ℕ∞) (fun t => B / J * unseen t) := contDiff_const.mul unseen_smooth
  refine ⟨fun t => B / J * unseen t, fun t => ∫ u in (0 : ℝ)..t, B / J * unseen u, hsm, fun t =>
    intervalIntegral.integral_hasDerivAt_right (hsm.continuous.intervalIntegrable _ _)
      (hsm.continuous.stronglyMeasurableAtFilter _ _) hsm.continuous.continuousAt, ?_⟩
  intro m hco hrhs hec hctl hnorm c hc
  have hu : Uses m ((dopri45.cast ℝ).tableau 7) := uses_of_cast (co := dopri45) (s := 7) (l := 0) (by decide)
    (coefficients_ext (by decide +kernel) (by decide +kernel) (by decide +kernel) rfl)
    (by decide +kernel) m hco
  have hq : Quiet m.ec (fun _ => True) := by
    rw [hec]
    exact ⟨fun c hc => by simp at hc, fun c hc => by simp at hc, fun c hc => by simp at hc⟩
  set s : FixedSt ℝ ℝ Unit := ⟨0, ∫ u in (0 : ℝ)..0, B / J * unseen u, none, Output.mkEmpty, 1, (), []⟩ with hs
  have hrd : Ready ((dopri45.cast ℝ).tableau 7) s := .inl rfl
  have hout : ∀ ix, ((dopri45.cast ℝ).tableau 7).output m.rhs 0 1 s.x ix = s.x := by
    intro ix
    have : ∀ i ∈ Finset.range 7, ((dopri45.cast ℝ).tableau 7).b ix i • ((dopri45.cast ℝ).tableau 7).stage m.rhs 0 1 s.x i = 0 := by
      intro i hi
      rw [Tableau.stage_eq, hrhs]
      simp only [zero_add, one_mul]
      have e : ((dopri45.cast ℝ).tableau 7).c i = (dopri45.cast ℝ).C i := rfl
      rw [e, unseen_stage (Finset.mem_range.1 hi), mul_zero, smul_zero]
    unfold Tableau.output
    rw [show ((dopri45.cast ℝ).tableau 7).s = 7 from rfl, Finset.sum_eq_zero this, smul_zero, add_zero]
  have hj : m.judge ((dopri45.cast ℝ).tableau 7) s.t s.x 1 = ⟨1, true, false⟩ := by
    unfold EmbMethod.judge EmbMethod.verdict
    rw [show s.t = 0 from rfl, hout, hout, sub_self, hctl, hnorm]
    simp [CtlParams.control]
  obtain ⟨A, hA⟩ := C30_total m _ hu _ hq s trivial hrd
  obtain ⟨h', a1, a2, a3, a4, a5⟩ := C30_attempt m _ hu s hrd A hA
  have hh : s.stepInUse = some 1 := rfl
  rw [hh] at a1
  cases a1
  cases A with
  | rejected s' =>
    obtain ⟨_, _, _, _, h'', _, b⟩ := a3 s' rfl
    have := b.1
    simp [hj] at this
  | thrown msg s' =>
    have := (a5 msg s' rfl).1
    simp [hj] at this
  | accepted s' =>
    have hdo : s.doStepEmb m 1 = some (.ok (.accepted s')) := by simp [FixedSt.doStepEmb, hA]
    obtain ⟨h₀, h₁, b1, b2, b3, b4, b5, b6, b7⟩ := C30_quiet m _ hu _ hq 1 s s' trivial hrd hdo
    rw [hh] at b1
    cases b1
    have e : h₁ = 1 := by
      cases Relation.ReflTransGen.cases_head b2 with
      | inl e => exact e.symm
      | inr e => obtain ⟨c, e, _⟩ := e; have := e.1; simp [hj] at this
    subst e
    have ht : s'.t = 1 := by rw [b4]; simp [hs]
    rw [show s.t = 0 from rfl, hout] at b5
    obtain ⟨evs, hrun⟩ := fixed_run (sv := emb m 1) c hc 1 0 1 1 le_rfl (fun k => if k = 0 then s else s') rfl
      (fun k hk => by
        have hk' : k = 0 ∨ k = 1 := by omega
        rcases hk' with rfl | rfl
        · show s.t = _; simp [hs]
        · show s'.t = _; rw [ht]; simp) zero_le_one
      (fun k hk => by
        obtain rfl : k = 0 := by omega
        exact emb_first hdo) (by simp) (.inl rfl)
    refine ⟨evs, s', hrun, ht, ?_⟩
    rw [b5]
    have e1 : s.x = 0 := by simp [hs]
    have e2 : ∫ u in (0 : ℝ)..1, B / J * unseen u = B := by
      rw [intervalIntegral.integral_const_mul, ← hJ, div_mul_cancel₀ _ hpos.ne']
    simp only [e1, e2, zero_sub, abs_neg]
    exact le_abs_self B

end Verif.Driver
