import Verif.Extrap.Rk4Order

/-! # C115: the error estimate of the extrapolator -/

namespace Verif.Extrap

open Verif.Res Verif.RK Filter Topology Asymptotics Set
open scoped BigOperators

section
variable {F : Type} [NormedAddCommGroup F] [NormedSpace ℝ F] {E S Q : Type}

/-- The error told to the observers after an attempt, what else it says, and the step size after the attempt -/
def told (A : Attempt (ExSt ℝ F E S Q)) (l : List (Obs ℝ)) : Prop :=
  match A with
  | .accepted s => s.log = l
  | .rejected s => s.log = l
  | .thrown _ _ => False

/-- In an attempt to make a step of size `h` from `(t₀, x₀)` the step size controller is given an error estimate which
is a function of `h` of order `q + 1`, and it is given the order `q`. It is obeyed, and the observers are told the
same estimate, unless the new step size is too small. -/
def EstimateHasOrder (m : ExMethod ℝ F E S Q) (f : ℝ → F → F) (b : Nat → Nat) (q : Nat) : Prop :=
  ∀ (t₀ : ℝ) (x₀ : F) (_ : ContDiffAt ℝ m.order.toNat (fun z : ℝ × F => f z.1 z.2) (t₀, x₀))
    (y : ℝ → F) (_ : y t₀ = x₀) (_ : ∀ᶠ t in 𝓝 t₀, HasDerivAt y (f t (y t)) t),
    ∃ err : ℝ → ℝ, err =O[𝓝 0] (fun h => h ^ (q + 1)) ∧
      ∀ (s : ExSt ℝ F E S Q) (h : ℝ), s.t = t₀ → s.x = x₀ → Ready b m.maxStages h s →
        ∃ A res, s.attempt m = .ok A ∧ res = m.control h (err h) q ∧
          (res.changeStepSize = false ∨ m.hMin < res.newStepSize →
            told A (.post (if res.changeStepSize then res.newStepSize else h) res.acceptStep res.changeStepSize
              Trunc.none (err h) :: .pre s.h :: s.log))

theorem estimate_order {m : ExMethod ℝ F E S Q} {r : RefSolver ℝ F S} {Φ : ℝ → F → ℝ → Nat → F} {sq : StepSeq Q}
    {b : Nat → Nat} {B : Nat} (hm : Sane m r Φ sq b B) (hec : m.ec = none) (hd : m.disableErrorCheck = false)
    {c : ℝ} (hn : ∀ v, |m.norm v| ≤ c * ‖v‖) {q : Nat} (hq : m.lowOrder = q) {f : ℝ → F → F}
    (h0 : ∀ (t₀ : ℝ) (y : ℝ → F), ContDiffAt ℝ m.order.toNat (fun z : ℝ × F => f z.1 z.2) (t₀, y t₀) →
      (∀ᶠ t in 𝓝 t₀, HasDerivAt y (f t (y t)) t) → ∀ lo ≤ 1,
      (fun h => extrapolated m.symmetric b Φ lo m.maxStages t₀ (y t₀) h - y (t₀ + h)) =O[𝓝 0] (fun h => h ^ (q + 1))) :
    EstimateHasOrder m f b q := by
  intro t₀ x₀ hf y hy0 hy
  subst hy0
  refine ⟨fun h => m.norm (extrapolated m.symmetric b Φ 0 m.maxStages t₀ (y t₀) h
    - extrapolated m.symmetric b Φ 1 m.maxStages t₀ (y t₀) h), ?_, ?_⟩
  · have h1 := (h0 t₀ y hf hy 0 (by omega)).sub (h0 t₀ y hf hy 1 (le_refl 1))
    refine (IsBigO.of_bound c ?_).trans h1
    refine Eventually.of_forall (fun h => ?_)
    rw [Real.norm_eq_abs, sub_sub_sub_cancel_right]
    exact hn _
  · rintro s h rfl hx hready
    obtain ⟨res, hres⟩ : ∃ res, res = m.control h (m.norm (extrapolated m.symmetric b Φ 0 m.maxStages s.t (y s.t) h
      - extrapolated m.symmetric b Φ 1 m.maxStages s.t (y s.t) h)) q := ⟨_, rfl⟩
    have hnd : ¬ m.disableErrorCheck = true := by rw [hd]; decide
    obtain ⟨s', _, _, _, _, _, _, _, k⟩ := attempt_ok hm.ref hm.seq hm.behaves hm.gives hm.one hm.most hm.two s hready
      (e := s.ec) (e2 := s.ec) (x2 := extrapolated m.symmetric b Φ 0 m.maxStages s.t s.x h) (t2 := s.t + h)
      (tr := Trunc.none) _ rfl _ rfl _ rfl (by unfold ExMethod.ecStart; rw [hec])
      (fun _ => by unfold ExMethod.ecEnd; rw [hec])
    rw [if_neg hnd, if_neg hnd, hq, hx] at k
    rw [Int.cast_natCast, ← hres] at k
    split at k
    · next hmin =>
      refine ⟨_, res, k.2, hres, fun hh => ?_⟩
      simp only [Bool.and_eq_true, decide_eq_true_eq] at hmin
      rcases hh with hh | hh
      · rw [hh] at hmin
        cases hmin.1
      · exact absurd hmin.2 (not_le.2 hh)
    · refine ⟨_, res, k.2, hres, fun _ => ?_⟩
      have hlog := k.1
      have : (if res.acceptStep = true then Trunc.none else Trunc.none) = Trunc.none := by split <;> rfl
      rw [this] at hlog
      by_cases ha : res.acceptStep = true
      · rw [if_pos ha]; exact hlog
      · rw [if_neg ha]; exact hlog

variable [CompleteSpace F]

/-- C115, Runge-Kutta references of declared order 1. Missing: false for other references, see `C115_false`. -/
theorem C115_rk_partial (T : Tableau ℝ) (hs : 1 ≤ T.s) (h0 : T.c 0 = 0)
    (hrow : ∀ l, l < T.s → T.c l = ∑ j ∈ Finset.range l, T.a l j) (hb1 : ∑ l ∈ Finset.range T.s, T.b 0 l = 1)
    {E0 : Type} (g : Method ℝ F E0) (hco : g.co = T.pack 1 (-1)) (hgec : g.ec = none)
    (m : ExMethod ℝ F E (FixedSt ℝ F E0) Q) (href : m.ref = some (g.ref 1)) (hec : m.ec = none)
    (sq : StepSeq Q) (hsq : m.seq = some sq) (b : Nat → Nat) (B : Nat) (hg : Gives sq b B)
    (h2 : 2 ≤ m.maxStages) (h3 : m.maxStages ≤ B) (hsym : m.symmetric = false) (hd : m.disableErrorCheck = false)
    (c : ℝ) (hn : ∀ v, |m.norm v| ≤ c * ‖v‖) :
    EstimateHasOrder m g.rhs b (m.maxStages - 1) := by
  have hord : m.order = m.maxStages := by
    unfold ExMethod.order
    rw [href, hsym]
    simp [Method.ref]
  have hsane : Sane m (g.ref 1) (rkIter T g.rhs) sq b B :=
    ⟨href, hsq, behaves_rk T g 1 hs h0 hco hgec, hg, by omega, Or.inr h2, h3⟩
  refine estimate_order hsane hec hd hn ?_ ?_
  · unfold ExMethod.lowOrder
    rw [hord, hsym]
    simp
    omega
  · intro t₀ y hf hy lo hlo
    rw [hord, Int.toNat_natCast] at hf
    have := rk_extrapolated_order T hs hrow hb1 b hg.mono hg.pos lo m.maxStages (by omega)
      (hf.of_le (by norm_cast; omega)) y rfl hy
    rw [hsym]
    refine this.trans (IsBigO.of_bound 1 ?_)
    filter_upwards [Metric.ball_mem_nhds (0 : ℝ) one_pos] with h hh
    rw [one_mul, norm_pow, norm_pow]
    rw [mem_ball_zero_iff] at hh
    exact pow_le_pow_of_le_one (norm_nonneg _) hh.le (by omega)

/-- C115, the Gragg reference with the flag `symmetric`. Missing: see `C115_rk_partial`. -/
theorem C115_gragg_partial {E0 : Type} (g : GrMethod ℝ F E0) (hgec : g.ec = none)
    (m : ExMethod ℝ F E (GrSt ℝ F E0) Q) (href : m.ref = some g.ref) (hec : m.ec = none)
    (sq : StepSeq Q) (hsq : m.seq = some sq) (b : Nat → Nat) (B : Nat) (hg : Gives sq b B)
    (h2 : 2 ≤ m.maxStages) (h3 : m.maxStages ≤ B) (hsym : m.symmetric = true) (hd : m.disableErrorCheck = false)
    (c : ℝ) (hn : ∀ v, |m.norm v| ≤ c * ‖v‖) :
    EstimateHasOrder m g.rhs b (2 * (m.maxStages - 1)) := by
  have hord : m.order = ((2 * m.maxStages : Nat) : Int) := by
    unfold ExMethod.order
    rw [href, hsym]
    simp only [GrMethod.ref, if_true]
    push_cast
    ring
  have hsane : Sane m g.ref (graggValue g.smooth g.rhs) sq b B :=
    ⟨href, hsq, behaves_gragg g hgec, hg, by omega, Or.inr h2, h3⟩
  refine estimate_order hsane hec hd hn ?_ ?_
  · unfold ExMethod.lowOrder
    rw [hord, hsym]
    simp
    omega
  · intro t₀ y hf hy lo hlo
    rw [hord, Int.toNat_natCast] at hf
    have := gragg_extrapolated_order g.smooth b hg.mono hg.pos lo m.maxStages (by omega)
      (f := g.rhs) (x₀ := y t₀) (t₀ := t₀) (hf.of_le (by norm_cast; omega)) y rfl hy
    rw [hsym]
    refine this.trans (IsBigO.of_bound 1 ?_)
    filter_upwards [Metric.ball_mem_nhds (0 : ℝ) one_pos] with h hh
    rw [one_mul, norm_pow, norm_pow]
    rw [mem_ball_zero_iff] at hh
    exact pow_le_pow_of_le_one (norm_nonneg _) hh.le (by omega)

end

/-- Two stages of the Euler method on `x' = x` with the error check -/
noncomputable def exEuler : ExMethod ℝ ℝ Unit (FixedSt ℝ ℝ Unit) Nat where
  ref := some ((⟨euler.cast ℝ, fun _ x => x, none⟩ : Method ℝ ℝ Unit).ref 1)
  seq := some harmonic
  ec := none
  symmetric := false
  disableErrorCheck := false
  maxStages := 2
  hMin := 0
  norm x := |x|
  control h _ _ := ⟨h, true, false⟩

/-- A case of C115: the estimate has order 1. -/
example : EstimateHasOrder exEuler (fun _ x => x) harmonicNo 1 := by
  have hpk : (euler.tableau 1).pack 1 (-1) = euler :=
    coefficients_ext (by decide +kernel) (by decide +kernel) (by decide +kernel) rfl
  exact C115_rk_partial ((euler.cast ℝ).tableau 1) (by decide) rfl (fun l hl => by
      have : l = 0 := by
        have : l < 1 := hl
        omega
      subst this
      rfl)
    (by
      have : (∑ l ∈ Finset.range 1, ((euler.cast ℝ).tableau 1).b 0 l) = 1 := by
        rw [Finset.sum_range_one]
        have := cast_B (R := ℝ) euler 1 0 0
        rw [show (((euler.cast ℝ).tableau 1).b 0 0) = (euler.cast ℝ).B 1 0 0 from rfl, this,
          show euler.B 1 0 0 = 1 by decide +kernel]
        norm_num
      exact this) ⟨euler.cast ℝ, fun _ x => x, none⟩ (cast_pack hpk).symm rfl exEuler rfl rfl harmonic rfl
    harmonicNo (2 ^ 31 - 2) gives_harmonic (le_refl 2) (by decide) rfl rfl 1 (fun v => by rw [one_mul, Real.norm_eq_abs]; exact
      (abs_abs v).le)

/-! ### The classical Runge-Kutta method as reference -/

/-- Three stages of the classical Runge-Kutta method on `x' = x` with the error check -/
noncomputable def exRk43 : ExMethod ℝ ℝ Unit (FixedSt ℝ ℝ Unit) Nat where
  ref := some (expRk4.ref 4)
  seq := some harmonic
  ec := none
  symmetric := false
  disableErrorCheck := false
  maxStages := 3
  hMin := 0
  norm x := |x|
  control h _ _ := ⟨h, true, false⟩

theorem exRk43_sane : Sane exRk43 (expRk4.ref 4) (rkIter ((rk4.cast ℝ).tableau 4) (fun _ x => x)) harmonic harmonicNo
    (2 ^ 31 - 2) := by
  have hpk : (rk4.tableau 4).pack 1 (-1) = rk4 :=
    coefficients_ext (by decide +kernel) (by decide +kernel) (by decide +kernel) rfl
  exact ⟨rfl, rfl, behaves_rk _ expRk4 4 (by decide) rfl (cast_pack hpk).symm rfl, gives_harmonic, by decide,
    Or.inr (by decide), by decide⟩

/-- The growth factor of a step of the method -/
noncomputable def factor4 (h : ℝ) : ℝ := 1 + h + h ^ 2 / 2 + h ^ 3 / 6 + h ^ 4 / 24

theorem exRk43_high (h : ℝ) :
    extrapolated false harmonicNo (rkIter ((rk4.cast ℝ).tableau 4) (fun _ x => x)) 0 3 0 1 h
      = factor4 h / 2 - 4 * factor4 (h / 2) ^ 2 + 9 / 2 * factor4 (h / 3) ^ 3 := by
  have hinj := node_inj false harmonicNo harmonicNo_strictMono (by decide) (Finset.Ico 0 3)
  obtain ⟨P1, h1⟩ : ∃ P, P = factor4 h := ⟨_, rfl⟩
  obtain ⟨P2, h2⟩ : ∃ P, P = factor4 (h / 2) ^ 2 := ⟨_, rfl⟩
  obtain ⟨P3, h3⟩ : ∃ P, P = factor4 (h / 3) ^ 3 := ⟨_, rfl⟩
  have := extrap_poly (Finset.Ico 0 3) (fun m => (node false (harmonicNo m) : ℝ)) hinj
    (fun j => if j = 0 then P1 / 2 - 4 * P2 + 9 / 2 * P3 else if j = 1 then -5 / 2 * P1 + 16 * P2 - 27 / 2 * P3 else
      3 * P1 - 12 * P2 + 9 * P3) 3 (by decide) (by decide)
  rw [if_pos rfl] at this
  rw [← h1, ← h2, ← h3, ← this]
  unfold extrapolated
  apply extrap_congr
  intro m hm
  rw [Finset.mem_Ico] at hm
  have hm' : m = 0 ∨ m = 1 ∨ m = 2 := by omega
  rw [Finset.sum_range_succ, Finset.sum_range_succ, Finset.sum_range_succ, Finset.sum_range_zero]
  rcases hm' with rfl | rfl | rfl
  · simp [rkIter, harmonicNo, node, rk4_factor, h1, h2, h3, factor4]
    ring
  · simp [rkIter, harmonicNo, node, rk4_factor, h1, h2, h3, factor4]
    ring
  · simp [rkIter, harmonicNo, node, rk4_factor, h1, h2, h3, factor4]
    ring

theorem exRk43_low (h : ℝ) :
    extrapolated false harmonicNo (rkIter ((rk4.cast ℝ).tableau 4) (fun _ x => x)) 1 3 0 1 h
      = 3 * factor4 (h / 3) ^ 3 - 2 * factor4 (h / 2) ^ 2 := by
  have hinj := node_inj false harmonicNo harmonicNo_strictMono (by decide) (Finset.Ico 1 3)
  obtain ⟨P2, h2⟩ : ∃ P, P = factor4 (h / 2) ^ 2 := ⟨_, rfl⟩
  obtain ⟨P3, h3⟩ : ∃ P, P = factor4 (h / 3) ^ 3 := ⟨_, rfl⟩
  have := extrap_poly (Finset.Ico 1 3) (fun m => (node false (harmonicNo m) : ℝ)) hinj
    (fun j => if j = 0 then 3 * P3 - 2 * P2 else 6 * (P2 - P3)) 2 (by decide) (by decide)
  rw [if_pos rfl] at this
  rw [← h2, ← h3, ← this]
  unfold extrapolated
  apply extrap_congr
  intro m hm
  rw [Finset.mem_Ico] at hm
  have hm' : m = 1 ∨ m = 2 := by omega
  rw [Finset.sum_range_succ, Finset.sum_range_succ, Finset.sum_range_zero]
  rcases hm' with rfl | rfl
  · simp [rkIter, harmonicNo, node, rk4_factor, h2, h3, factor4]
    ring
  · simp [rkIter, harmonicNo, node, rk4_factor, h2, h3, factor4]
    ring

theorem estimate_large {h : ℝ} (h0 : 0 ≤ h) (h1 : h ≤ 1) : 3 / 1000 * h ^ 5 ≤
    |factor4 h / 2 - 4 * factor4 (h / 2) ^ 2 + 9 / 2 * factor4 (h / 3) ^ 3 -
      (3 * factor4 (h / 3) ^ 3 - 2 * factor4 (h / 2) ^ 2)| := by
  refine le_trans ?_ (neg_le_abs _)
  have hp : ∀ k, 5 ≤ k → h ^ k ≤ h ^ 5 := fun k hk => pow_le_pow_of_le_one h0 h1 hk
  have h6 := pow_nonneg h0 6
  have h7 := hp 7 (by omega)
  have h8 := hp 8 (by omega)
  have h9 := hp 9 (by omega)
  have h10 := hp 10 (by omega)
  have h11 := hp 11 (by omega)
  have h12 := hp 12 (by omega)
  have h5 := pow_nonneg h0 5
  unfold factor4
  linarith

/-- C115 is false with the classical Runge-Kutta method as reference: with three stages the controller is told that
the estimate has order 5, and it has order 4 only. -/
theorem C115_false : exRk43.lowOrder = 5 ∧ ¬ EstimateHasOrder exRk43 (fun _ x => x) harmonicNo 5 := by
  refine ⟨by unfold ExMethod.lowOrder ExMethod.order exRk43; decide, fun hest => ?_⟩
  obtain ⟨err, hO, hstep⟩ := hest 0 1 contDiffAt_snd Real.exp Real.exp_zero
    (Filter.Eventually.of_forall (fun t => Real.hasDerivAt_exp t))
  have hval : ∀ h, err h = |factor4 h / 2 - 4 * factor4 (h / 2) ^ 2 + 9 / 2 * factor4 (h / 3) ^ 3 -
      (3 * factor4 (h / 3) ^ 3 - 2 * factor4 (h / 2) ^ 2)| := by
    intro h
    obtain ⟨s, hs⟩ : ∃ s : ExSt ℝ ℝ Unit (FixedSt ℝ ℝ Unit) Nat,
      s = ⟨0, 1, none, [], [], h, ⟨0, 0, none, Output.mkEmpty, 0, (), []⟩, 1, (), []⟩ := ⟨_, rfl⟩
    have ht : s.t = 0 := by rw [hs]
    have hx : s.x = 1 := by rw [hs]
    have hready : Ready harmonicNo exRk43.maxStages h s := by rw [hs]; exact Or.inl ⟨rfl, rfl⟩
    obtain ⟨A, res, a1, a2, a3⟩ := hstep s h ht hx hready
    have hres : res = ⟨h, true, false⟩ := a2
    obtain ⟨s', _, _, _, _, _, _, _, k⟩ := attempt_ok exRk43_sane.ref exRk43_sane.seq exRk43_sane.behaves
      exRk43_sane.gives exRk43_sane.one exRk43_sane.most exRk43_sane.two s hready
      (e := s.ec) (e2 := s.ec) (x2 := extrapolated exRk43.symmetric harmonicNo
        (rkIter ((rk4.cast ℝ).tableau 4) (fun _ x => x)) 0 3 s.t s.x h) (t2 := s.t + h)
      (tr := Trunc.none) _ rfl _ rfl ⟨h, true, false⟩ rfl rfl (fun _ => rfl)
    simp only [Bool.false_and, Bool.false_eq_true, if_false, if_true] at k
    rw [k.2] at a1
    cases a1
    have := a3 (Or.inl (by rw [hres]))
    unfold told at this
    simp only at this
    rw [k.1, hres] at this
    simp only [Bool.false_eq_true, if_false] at this
    have h1 := (List.cons.inj this).1
    injection h1 with _ _ _ _ h1
    rw [← h1, ht, hx]
    show |_ - _| = _
    rw [show exRk43.symmetric = false from rfl, show exRk43.maxStages = 3 from rfl, exRk43_high, exRk43_low]
  obtain ⟨c, hc⟩ := hO.bound
  obtain ⟨ε, hε, hball⟩ := Metric.eventually_nhds_iff_ball.1 hc
  obtain ⟨d, hd⟩ : ∃ d, d = min (min (ε / 2) 1) (3 / 1000 / (2 * (|c| + 1))) := ⟨_, rfl⟩
  have hd0 : 0 < d := by rw [hd]; positivity
  have hd1 : d ≤ 1 := by rw [hd]; exact (min_le_left _ _).trans (min_le_right _ _)
  have hdb : d ∈ Metric.ball (0 : ℝ) ε := by
    rw [Metric.mem_ball, dist_zero_right, Real.norm_eq_abs, abs_of_pos hd0, hd]
    exact lt_of_le_of_lt ((min_le_left _ _).trans (min_le_left _ _)) (by linarith)
  have h1 := hball d hdb
  rw [hval, Real.norm_eq_abs, abs_abs, Real.norm_eq_abs, abs_of_pos (pow_pos hd0 _)] at h1
  have h3 : 3 / 1000 * d ^ 5 ≤ c * d ^ 6 := (estimate_large hd0.le hd1).trans h1
  have h4 : c * d ^ 6 ≤ d ^ 5 * (d * (|c| + 1)) := by
    have : c ≤ |c| + 1 := (le_abs_self c).trans (by linarith)
    calc c * d ^ 6 ≤ (|c| + 1) * d ^ 6 := by gcongr
      _ = _ := by ring
  have h5 : d * (|c| + 1) ≤ 3 / 2000 := by
    have : d ≤ 3 / 1000 / (2 * (|c| + 1)) := by rw [hd]; exact min_le_right _ _
    calc d * (|c| + 1) ≤ 3 / 1000 / (2 * (|c| + 1)) * (|c| + 1) := by gcongr
      _ = 3 / 2000 := by field_simp; norm_num
  have h6 : 0 < d ^ 5 := by positivity
  nlinarith

end Verif.Extrap
