import Verif.Ros.OrderProps
import Mathlib.Analysis.SpecialFunctions.ExpDeriv

/-! # The hypotheses of C40, C41, C92, C93 are met: `x' = -x` -/

namespace Verif.Ros

open Verif.Res Verif.Alg Verif.Implicit Verif.Vec Verif.Sparse
open Asymptotics Filter Topology

variable {E : Type}

/-- If the controller rejects the step `rho*h` and suggests `h`, and accepts `h`, there are retried steps. -/
theorem retry_exists {M : Method ℝ E} {n1 : Nat} {f} {s : St ℝ E} {b0 : Base ℝ} (hs : Ready M 0 n1 f s b0)
    (hf0 : s.k1 ≠ [] → s.f0 = List.ofFn (f s.t (fn _ s.x))) (hec : M.ec = none) {rho h : ℝ} (hrho : rho ≠ 0)
    (hh : h ≠ 0) (hr : b0.Regular (rho * h * M.d)) (hdis : M.disableErrorCheck = false)
    (hc1 : ∀ e, M.control (rho * h) e 2 = ⟨h, false, true⟩) (hc2 : ∀ e, M.control h e 2 = ⟨h, true, false⟩)
    (hmin : M.hMin < h) : h ∈ retried M s rho := by
  have hu := computes_total hs.rhs
  have hrhs := hs.rhs
  obtain ⟨hbn, s1, e1, e2, e3, e4, e5, e6, elog, k3, hfs, e8⟩ := ready_init hs hf0 (rho * h)
  have hn1 : s1.base.n = 2 * 0 + n1 := by rw [k3.1, hbn]
  have hc := e8 (mul_ne_zero (mul_ne_zero hrho hh) hs.d)
  have hv : (M.rhs s1.ec).varCount = 2 * 0 + n1 := by unfold Rhs.varCount; rw [e6, hrhs.1, hrhs.2.1]
  have htot : Total (M.rhs s1.ec) := by rw [e6]; exact hu
  have hm' : 0 < s1.base.n2 + s1.base.n1 := by rw [e2.pos, e2.fst]; exact hs.size
  obtain ⟨g, g1, g2, g3, g4, g5⟩ := stages_ok e2.ok hm' hc (k3.regular hr) (Or.inr e2.pos) (by rw [hn1, hv])
    (by rw [e2.x, hn1]) (by rw [e2.f0, hn1]) htot
  obtain ⟨b, w3, w4, v, p1, p2, p3, p4, -⟩ := errorStages_ok hdis g2 g3 hm' g4 (k3.regular hr) (Or.inr e2.pos)
    (by rw [hn1, hv]) htot g5
  have ha : ∃ s2, s1.attempt M = .ok (.rejected s2) ∧ s2.h = h := by
    unfold St.attempt Method.start
    rw [hec]
    simp only [bind_ok]
    rw [g1, bind_ok, p1, bind_ok, hdis]
    simp only [Bool.false_eq_true, if_false]
    rw [e3, hc1]
    simp only [Bool.false_eq_true, if_false, bind_ok, if_true, true_and]
    rw [if_neg (not_le.2 hmin)]
    exact ⟨_, rfl, rfl⟩
  obtain ⟨s2, ha, hs2⟩ := ha
  obtain ⟨q1, q2, q3, q4, q5, -⟩ := rejected_inv ha
  obtain ⟨t1, t2⟩ := rejected_base hec g1 p1 ha
  dsimp only at t1
  have hJ : b0.SameJ s2.base := by rw [t1]; exact k3.trans p3
  have hn2 : s2.base.n = 2 * 0 + n1 := by rw [hJ.1, hbn]
  have hpos : s2.base.n2 = 0 := by rw [t1, p3.2.1, e2.pos]
  have hfst : s2.base.n1 = n1 := by rw [t1, p3.2.2.1, e2.fst]
  have hec2 : s2.ec = s.ec := by rw [t2, e6]
  have hf2 : s2.f0 = List.ofFn (f s.t (fn _ s.x)) := by rw [q4, hfs]
  have ht2 : s2.t = s.t := by rw [q2, e4]
  have hx2 : s2.x = s.x := by rw [q3, e5]
  have hv2 : s2.base.n = (M.rhs s2.ec).varCount := by rw [hn2, hec2, ← e6, hv]
  have hm2 : 0 < s2.base.n2 + s2.base.n1 := by rw [hpos, hfst]; exact hs.size
  have htot2 : Total (M.rhs s2.ec) := by rw [hec2]; exact hu
  obtain ⟨g', g1', g2', g3', g4', g5'⟩ := stages_ok (M := M) (s := { s2 with log := .pre (some s2.h) :: s2.log })
    (hd := rho * h * M.d) (by show s2.base.Ok; rw [t1]; exact p2) hm2
    (by show s2.base.cur = _; rw [q1, hc]) (hJ.regular hr) (Or.inr hpos) hv2
    (by show s2.x.length = s2.base.n; rw [hx2, hn2]; exact hs.x)
    (by show s2.f0.length = s2.base.n; rw [hf2, hn2]; simp) htot2
  obtain ⟨b', w3', w4', v', p1', -⟩ := errorStages_ok hdis g2' g3' hm2 g4' (hJ.regular hr) (Or.inr hpos) hv2 htot2 g5'
  have hb : ∃ s', St.attempt M { s2 with log := .pre (some s2.h) :: s2.log } = .ok (.accepted s') := by
    unfold St.attempt Method.start Method.finish
    rw [hec]
    simp only [bind_ok]
    rw [g1', bind_ok, p1', bind_ok, hdis, hs2]
    simp only [Bool.false_eq_true, if_false]
    rw [hc2]
    simp only [if_true, RK.Trunc.none, Bool.false_eq_true, if_false, bind_ok, false_and]
    exact ⟨_, rfl⟩
  obtain ⟨s', hb⟩ := hb
  obtain ⟨a1, -⟩ := accepted_inv' hec g1' hb
  refine ⟨s', ?_, by
    have a1' : s'.t = s2.t + s2.h := a1
    rw [a1', ht2, hs2]⟩
  unfold St.doStep2 St.passes
  have e1' : ({ ({ s with h := rho * h } : St ℝ E) with log := .pre (some (rho * h)) :: s.log } : St ℝ E).initStep2 M =
    .ok s1 := e1
  dsimp only
  rw [if_pos rfl, e1']
  dsimp only
  rw [ha]
  dsimp only
  unfold St.passes
  dsimp only
  rw [if_neg (by decide)]
  dsimp only
  rw [hb]

/-- `x' = -x` with a controller that turns steps back in time round, and accepts other steps -/
noncomputable def decayR (d : ℝ) : Method ℝ Unit where
  rhs _ := ⟨0, 1, fun _ x => do
    let v ← at' x 0
    .ok [-v]⟩
  dx := 1
  d := d
  ec := none
  disableErrorCheck := false
  hMin := 0
  norm v := |v.getD 0 0|
  control h _ _ := if h < 0 then ⟨-h, false, true⟩ else ⟨h, true, false⟩

/-- A new solver with initial state 1 -/
noncomputable def decayRStart : St ℝ Unit := ⟨Base.new, 0, [1], 0, [], [], (), []⟩

theorem decayR_computes (d : ℝ) : Computes ((decayR d).rhs ()) 0 1 (fun _ x i => -x i) := by
  refine ⟨rfl, rfl, fun t x hx => ?_⟩
  obtain ⟨v, rfl⟩ := List.length_eq_one_iff.1 (hx.trans (rfl : _ = 1))
  rfl

theorem decayR_ready {d : ℝ} (hd : d ≠ 0) : ∃ b0, Ready (decayR d) 0 1 (fun _ x i => -x i) decayRStart b0 ∧
    b0.n2 = 0 ∧ b0.n1 = 1 := by
  obtain ⟨s', -, -, -, -, -, -, -, h1, -⟩ := initStep2_ok (M := decayR d) (s := decayRStart) (n2 := 0) (n1 := 1)
    ⟨rfl, rfl, computes_total (decayR_computes d)⟩ (one_ne_zero) (Or.inr ⟨rfl, rfl⟩)
  obtain ⟨j1, b0, j2, j3, j4, j5, -⟩ := h1 rfl
  refine ⟨b0, ⟨by omega, decayR_computes d, one_ne_zero, hd, rfl, Or.inl ⟨rfl, _, j1, j2⟩, ?_⟩, j4, j5⟩
  rintro r c hrc ⟨r', -, hp⟩
  have := hp.2.1
  omega

theorem decayR_smooth (p : ℝ × (Fin (2 * 0 + 1) → ℝ)) :
    ContDiffAt ℝ 2 (fun p : ℝ × (Fin (2 * 0 + 1) → ℝ) => (fun i => -p.2 i : Fin (2 * 0 + 1) → ℝ)) p := by
  have : ContDiff ℝ 2 (fun p : ℝ × (Fin (2 * 0 + 1) → ℝ) => (fun i => -p.2 i : Fin (2 * 0 + 1) → ℝ)) := by
    fun_prop
  exact this.contDiffAt

/-- The solution -/
noncomputable def decayR_y (t : ℝ) : Fin (2 * 0 + 1) → ℝ := fun _ => Real.exp (-t)

theorem decayR_init : decayR_y 0 = fn (2 * 0 + 1) decayRStart.x := by
  funext i
  simp [decayR_y, fn, decayRStart]

theorem decayR_deriv (t : ℝ) : HasDerivAt decayR_y (fun i => -decayR_y t i) t := by
  refine hasDerivAt_pi.2 (fun i => ?_)
  have := (hasDerivAt_neg t).exp
  simpa [decayR_y] using this

/-- The hypotheses of `C41_order`, `C93_estimate`, `C92_leading` and `C92_order` are met. -/
example : ∃ X : ℝ → Fin (2 * 0 + 1) → ℝ,
    (∀ᶠ h in 𝓝[≠] (0 : ℝ), ∀ s', ({ decayRStart with h := h } : St ℝ Unit).doStep2 (decayR 1) 1 =
      some (.ok (.accepted s')) → s'.t = 0 + h ∧ fn _ s'.x = X h) ∧
    (fun h => X h - decayR_y (0 + h)) =O[𝓝[≠] 0] (fun h : ℝ => h ^ 3) := by
  obtain ⟨b0, hs, -⟩ := decayR_ready one_ne_zero
  obtain ⟨X, h1, h2⟩ := C41_order hs (fun h => absurd rfl h) rfl (decayR_smooth _) decayR_init
    (Eventually.of_forall decayR_deriv)
  exact ⟨X, h1.mono (fun h hh => hh.2), h2⟩

/-- The Jacobian of `x' = -x` is exact. -/
theorem decayR_jac {d : ℝ} {b0 : Base ℝ} (hs : Ready (decayR d) 0 1 (fun _ x i => -x i) decayRStart b0)
    (v : Fin (2 * 0 + 1) → ℝ) : b0.op _ v = -v := by
  rcases hs.jac with ⟨-, f0, j1, j2⟩ | ⟨h, -⟩
  · obtain ⟨b', e1, e2⟩ := C38_affine
      (b := ({ (Base.new : Base ℝ) with n := 2 * 0 + 1, n2 := 0, n1 := 1, buf := Vec.resize (Base.new : Base ℝ).buf (0 + 1) } :
        Base ℝ)) (dx := 1) one_ne_zero (x0 := [1]) rfl rfl (resize_length _ _) rfl (A := fun _ _ => -1) (a := fun _ => 0)
      (fun x hx => by
        obtain ⟨v, rfl⟩ := List.length_eq_one_iff.1 hx
        refine ⟨[-v], rfl, rfl, fun i hi => ?_⟩
        have : i = 0 := by simp only at hi; omega
        subst this
        simp) j1
    have h3 := j2.symm.trans e1
    injection h3 with h3
    have h4 := e2 0 0 (by simp) (by simp)
    rw [← h3] at h4
    funext i
    have hi : (i : Nat) = 0 := by omega
    unfold Base.op
    simp only [LinearMap.coe_toContinuousLinearMap', Matrix.toLin'_apply, Matrix.mulVec, dotProduct, Matrix.of_apply]
    have hall : ∀ a b : Fin (2 * 0 + 1), b0.jac a b = -1 := by
      intro a b
      have ha : (a : Nat) = 0 := by omega
      have hb : (b : Nat) = 0 := by omega
      rw [ha, hb, h4]
    simp only [hall]
    have hu : ∀ j : Fin (2 * 0 + 1), j = i := fun j => Fin.ext (by omega)
    rw [Finset.sum_eq_single i (fun j _ hj => absurd (hu j) hj) (fun h => absurd (Finset.mem_univ _) h)]
    simp
  · exact absurd rfl h

theorem decayR_fderiv (p q : ℝ × (Fin (2 * 0 + 1) → ℝ)) :
    fderiv ℝ (fun p : ℝ × (Fin (2 * 0 + 1) → ℝ) => (fun i => -p.2 i : Fin (2 * 0 + 1) → ℝ)) p q = -q.2 := by
  have h : HasFDerivAt (fun p : ℝ × (Fin (2 * 0 + 1) → ℝ) => (fun i => -p.2 i : Fin (2 * 0 + 1) → ℝ))
      (-(ContinuousLinearMap.snd ℝ ℝ (Fin (2 * 0 + 1) → ℝ))) p :=
    (-(ContinuousLinearMap.snd ℝ ℝ (Fin (2 * 0 + 1) → ℝ))).hasFDerivAt
  rw [h.fderiv]
  rfl

/-- The hypotheses of `C92_second` are met. -/
example : ∃ X : ℝ → Fin (2 * 0 + 1) → ℝ,
    (∀ᶠ h in 𝓝[≠] (0 : ℝ), ∃ s', ({ decayRStart with h := h } : St ℝ Unit).doStep1 (decayR (1 / 2)) = .ok s' ∧
      s'.t = 0 + h ∧ fn _ s'.x = X h) ∧
    (fun h => X h - decayR_y (0 + h)) =O[𝓝[≠] 0] (fun h : ℝ => h ^ 3) := by
  obtain ⟨b0, hs, -⟩ := decayR_ready (d := 1 / 2) (by norm_num)
  exact C92_second hs rfl (decayR_smooth _) decayR_init (Eventually.of_forall decayR_deriv) rfl
    (by rw [decayR_fderiv, decayR_jac hs])

/-- The hypotheses of `C92_sharp` are met: with `d = 1` W1 is implicit Euler, of order 1 only. -/
example {X : ℝ → Fin (2 * 0 + 1) → ℝ}
    (hX : ∀ᶠ h in 𝓝[≠] (0 : ℝ), ∃ s', ({ decayRStart with h := h } : St ℝ Unit).doStep1 (decayR 1) = .ok s' ∧
      fn _ s'.x = X h) : ¬ (fun h => X h - decayR_y (0 + h)) =O[𝓝[≠] 0] (fun h : ℝ => h ^ 3) := by
  obtain ⟨b0, hs, -⟩ := decayR_ready (d := 1) one_ne_zero
  refine C92_sharp hs rfl (decayR_smooth _) decayR_init (Eventually.of_forall decayR_deriv) ?_ hX
  rw [decayR_fderiv, decayR_jac hs]
  intro h
  have h1 := congrFun h 0
  have h2 : (decayR 1).d = 1 := rfl
  simp [h2, fn, decayRStart] at h1

/-- The hypotheses of `C40_order` are met by infinitely many step sizes: there are arbitrarily small retried steps. -/
theorem decayR_retried : ∃ b0, Ready (decayR 1) 0 1 (fun _ x i => -x i) decayRStart b0 ∧
    (𝓝[≠] 0 ⊓ 𝓟 (retried (decayR 1) decayRStart (-1))).NeBot := by
  obtain ⟨b0, hs, b2, b1⟩ := decayR_ready one_ne_zero
  refine ⟨b0, hs, ?_⟩
  have hreg : ∀ᶠ h in 𝓝[>] (0 : ℝ), b0.Regular (-1 * h * (decayR 1).d) := by
    have h1 : Tendsto (fun h : ℝ => -1 * h) (𝓝 0) (𝓝 0) := by
      have := (continuous_const_mul (-1 : ℝ)).tendsto (0 : ℝ)
      rwa [mul_zero] at this
    exact (h1.eventually (regular_small b0 (decayR 1).d hs.fill)).filter_mono nhdsWithin_le_nhds
  have hall : ∀ᶠ h in 𝓝[>] (0 : ℝ), h ∈ retried (decayR 1) decayRStart (-1) := by
    filter_upwards [hreg, self_mem_nhdsWithin] with h hr hpos
    have hpos : 0 < h := hpos
    refine retry_exists hs (fun h => absurd rfl h) rfl (by norm_num) hpos.ne' hr rfl (fun e => ?_) (fun e => ?_) hpos
    · show (if -1 * h < 0 then _ else _) = _
      rw [if_pos (by linarith)]
      simp
    · show (if h < 0 then _ else _) = _
      rw [if_neg (by linarith)]
  have hle : 𝓝[>] (0 : ℝ) ≤ 𝓝[≠] 0 ⊓ 𝓟 (retried (decayR 1) decayRStart (-1)) := by
    refine le_inf (nhdsWithin_mono _ (fun x hx => ne_of_gt hx)) (le_principal_iff.2 hall)
  exact NeBot.mono inferInstance hle

end Verif.Ros
