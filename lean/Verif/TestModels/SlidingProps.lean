import Verif.TestModels.More
import Mathlib.Analysis.SpecialFunctions.Trigonometric.ArctanDeriv
import Mathlib.Analysis.Calculus.MeanValue
import Mathlib.Analysis.Calculus.Deriv.MeanValue
import Mathlib.Analysis.Calculus.Deriv.Pow
import Mathlib.Analysis.SpecialFunctions.ExpDeriv

/-! # C102: friction of the sliding point -/

namespace Verif.TestModels

open Verif.Res

/-- Magnitude of friction documented by the parameters: saturating at `f0` (atan, tabular), or growing in
proportion to the speed, `f0` at speed `v0` (linear). -/
noncomputable def law (p : Sliding) (v : ℝ) : ℝ :=
  match p.kind with
  | .atan => 2 / Real.pi * p.f0 * Real.arctan (v / p.v0)
  | .tabular => p.f0 * min 1 (v / p.v0)
  | .linear => p.f0 * (v / p.v0)

theorem magnitude_eq (p : Sliding) (hv : 0 < p.v0) (v : ℝ) : p.magnitude v = .ok (law p v) := by
  unfold Sliding.magnitude law
  have hd : ∀ a, div a p.v0 = .ok (a / p.v0) := fun a => by unfold div; rw [if_neg hv.ne']
  cases p.kind with
  | atan => simp only; rw [hd]; rfl
  | tabular =>
    simp only
    split
    · rename_i h
      rw [hd, min_eq_right ((div_le_one hv).2 h.le)]; congr 1; ring
    · rename_i h
      rw [min_eq_left ((one_le_div hv).2 (not_lt.1 h)), mul_one]
  | linear => simp only; rw [hd]; congr 1; ring

/-- Speed -/
noncomputable def speed (v : ℝ × ℝ) : ℝ := Real.sqrt (v.1 * v.1 + v.2 * v.2)

/-- Friction force documented: of magnitude `law`, against the velocity; none at rest. -/
noncomputable def force (p : Sliding) (v : ℝ × ℝ) : ℝ × ℝ :=
  if 0 < speed v then (-(law p (speed v) / speed v) * v.1, -(law p (speed v) / speed v) * v.2) else (0, 0)

theorem friction_eq (p : Sliding) (hv : 0 < p.v0) (v : ℝ × ℝ) : p.friction v.1 v.2 = .ok (force p v) := by
  unfold Sliding.friction force
  simp only [magnitude_eq p hv]
  change Except.ok _ = _
  unfold speed
  split
  · congr 2 <;> ring
  · simp

theorem speed_nonneg (v : ℝ × ℝ) : 0 ≤ speed v := Real.sqrt_nonneg _

theorem speed_sq (v : ℝ × ℝ) : speed v ^ 2 = v.1 * v.1 + v.2 * v.2 :=
  Real.sq_sqrt (by nlinarith [mul_self_nonneg v.1, mul_self_nonneg v.2])

theorem speed_pos {v : ℝ × ℝ} : 0 < speed v ↔ v ≠ 0 := by
  constructor
  · rintro h rfl
    simp [speed] at h
  · intro h
    refine lt_of_le_of_ne (speed_nonneg v) (fun h0 => h ?_)
    have := speed_sq v
    rw [← h0] at this
    ext <;> simp <;> nlinarith [mul_self_nonneg v.1, mul_self_nonneg v.2]

/-- Greatest slope of the law -/
noncomputable def slope (p : Sliding) : ℝ :=
  match p.kind with
  | .atan => 2 / Real.pi * (p.f0 / p.v0)
  | _ => p.f0 / p.v0

theorem law_zero (p : Sliding) : law p 0 = 0 := by
  unfold law; cases p.kind <;> simp

theorem arctan_sub_le {a b : ℝ} (h : a ≤ b) : Real.arctan b - Real.arctan a ≤ b - a := by
  have : AntitoneOn (fun x => Real.arctan x - x) Set.univ :=
    antitoneOn_of_deriv_nonpos convex_univ
      (by fun_prop) (fun x _ => ((Real.differentiableAt_arctan x).sub differentiableAt_id).differentiableWithinAt)
      (fun x _ => by
        have := ((Real.hasDerivAt_arctan x).sub (hasDerivAt_id x)).deriv
        have e : (fun x => Real.arctan x - x) = Real.arctan - id := rfl
        rw [e, this]
        have : 1 / (1 + x ^ 2) ≤ 1 := by rw [div_le_one (by positivity)]; nlinarith [sq_nonneg x]
        linarith)
  have := this (Set.mem_univ a) (Set.mem_univ b) h
  simp only at this
  linarith

theorem law_mono (p : Sliding) (hv : 0 < p.v0) (hf : 0 ≤ p.f0) {a b : ℝ} (h : a ≤ b) :
    0 ≤ law p b - law p a ∧ law p b - law p a ≤ slope p * (b - a) := by
  have hd : a / p.v0 ≤ b / p.v0 := div_le_div_of_nonneg_right h hv.le
  have hpi : 0 ≤ 2 / Real.pi := by positivity
  unfold law slope
  cases p.kind with
  | atan =>
    simp only
    have h1 := Real.arctan_mono hd
    have h2 := arctan_sub_le hd
    have h3 : 0 ≤ 2 / Real.pi * p.f0 := mul_nonneg hpi hf
    constructor
    · rw [← mul_sub]; exact mul_nonneg h3 (by linarith)
    · rw [← mul_sub]
      refine (mul_le_mul_of_nonneg_left h2 h3).trans (le_of_eq ?_)
      field_simp
  | tabular =>
    simp only
    have h1 : min 1 (a / p.v0) ≤ min 1 (b / p.v0) := min_le_min_left 1 hd
    have h2 : min 1 (b / p.v0) - min 1 (a / p.v0) ≤ b / p.v0 - a / p.v0 := by
      rcases le_total 1 (a / p.v0) with h' | h' <;> rcases le_total 1 (b / p.v0) with h'' | h'' <;>
        simp only [min_eq_left, min_eq_right, h', h''] <;> linarith
    constructor
    · rw [← mul_sub]; exact mul_nonneg hf (by linarith)
    · rw [← mul_sub]
      refine (mul_le_mul_of_nonneg_left h2 hf).trans (le_of_eq ?_)
      field_simp
  | linear =>
    simp only
    constructor
    · rw [← mul_sub]; exact mul_nonneg hf (by linarith)
    · refine le_of_eq ?_
      field_simp

theorem law_nonneg (p : Sliding) (hv : 0 < p.v0) (hf : 0 ≤ p.f0) {s : ℝ} (h : 0 ≤ s) :
    0 ≤ law p s ∧ law p s ≤ slope p * s := by
  have := law_mono p hv hf h
  rw [law_zero p] at this
  simpa using this

/-- Cauchy's inequality -/
theorem cs (v w : ℝ × ℝ) : v.1 * w.1 + v.2 * w.2 ≤ speed v * speed w := by
  refine le_of_sq_le_sq' ?_ (mul_nonneg (speed_nonneg v) (speed_nonneg w))
  rw [mul_pow, speed_sq, speed_sq]
  nlinarith [sq_nonneg (v.1 * w.2 - v.2 * w.1)]
where
  le_of_sq_le_sq' {a b : ℝ} (h : a ^ 2 ≤ b ^ 2) (hb : 0 ≤ b) : a ≤ b := by
    by_contra hc
    push Not at hc
    nlinarith

/-- The force is `-k v`. -/
theorem force_coef (p : Sliding) (hv : 0 < p.v0) (hf : 0 ≤ p.f0) (v : ℝ × ℝ) :
    ∃ k, force p v = (-k * v.1, -k * v.2) ∧ 0 ≤ k ∧ k ≤ slope p ∧ k * speed v = law p (speed v) := by
  have hs : 0 ≤ slope p := by
    have := (law_nonneg p hv hf (s := 1) (by norm_num)); linarith
  unfold force
  by_cases h : 0 < speed v
  · rw [if_pos h]
    obtain ⟨h1, h2⟩ := law_nonneg p hv hf h.le
    exact ⟨_, rfl, div_nonneg h1 h.le, by rw [div_le_iff₀ h]; exact h2, by field_simp⟩
  · rw [if_neg h]
    have h0 : speed v = 0 := le_antisymm (not_lt.1 h) (speed_nonneg v)
    exact ⟨0, by simp, le_refl 0, hs, by rw [h0, law_zero]; simp⟩

/-- C102. Friction is against the velocity, with the documented magnitude, which is at most `f0` except for the
linear law; there is none at rest. -/
theorem C102_opposes (p : Sliding) (hv : 0 < p.v0) (hf : 0 ≤ p.f0) (v1 v2 : ℝ) :
    ∃ R1 R2, p.friction v1 v2 = .ok (R1, R2) ∧
      (∃ k, 0 ≤ k ∧ R1 = -k * v1 ∧ R2 = -k * v2 ∧ (0 < p.f0 → (v1, v2) ≠ (0, 0) → 0 < k)) ∧
      (v1 = 0 → v2 = 0 → R1 = 0 ∧ R2 = 0) ∧
      (∀ s, 0 ≤ s → s ^ 2 = v1 ^ 2 + v2 ^ 2 → R1 ^ 2 + R2 ^ 2 =
        (match p.kind with
          | .atan => 2 / Real.pi * p.f0 * Real.arctan (s / p.v0)
          | .tabular => p.f0 * min 1 (s / p.v0)
          | .linear => p.f0 * (s / p.v0)) ^ 2) ∧
      (p.kind ≠ .linear → R1 ^ 2 + R2 ^ 2 ≤ p.f0 ^ 2) := by
  obtain ⟨k, k1, k2, k3, k4⟩ := force_coef p hv hf (v1, v2)
  have hfr := friction_eq p hv (v1, v2)
  rw [k1] at hfr
  have hsq := speed_sq (v1, v2)
  have hR : (-k * v1) ^ 2 + (-k * v2) ^ 2 = law p (speed (v1, v2)) ^ 2 := by
    rw [← k4, mul_pow k, hsq]; ring
  have hpi := Real.pi_pos
  refine ⟨_, _, hfr, ⟨k, k2, rfl, rfl, fun hf' hne => ?_⟩, ?_, ?_, ?_⟩
  · have hsp := speed_pos.2 hne
    have hl : 0 < law p (speed (v1, v2)) := by
      have hq : 0 < speed (v1, v2) / p.v0 := div_pos hsp hv
      unfold law
      cases p.kind with
      | atan => exact mul_pos (by positivity) (by rw [← Real.arctan_zero]; exact Real.arctan_strictMono hq)
      | tabular => exact mul_pos hf' (lt_min one_pos hq)
      | linear => exact mul_pos hf' hq
    rw [← k4] at hl
    exact pos_of_mul_pos_left hl hsp.le
  · rintro rfl rfl; simp
  · intro s hs hs2
    have : s = speed (v1, v2) := by
      have e : s ^ 2 = speed (v1, v2) ^ 2 := by rw [hs2, hsq]; ring
      exact (sq_eq_sq₀ hs (speed_nonneg _)).1 e
    subst this
    exact hR
  · intro hk
    rw [hR]
    have h0 := (law_nonneg p hv hf (speed_nonneg (v1, v2))).1
    refine pow_le_pow_left₀ h0 ?_ 2
    unfold law
    cases h : p.kind with
    | atan =>
      have := (Real.arctan_lt_pi_div_two (speed (v1, v2) / p.v0)).le
      calc 2 / Real.pi * p.f0 * Real.arctan (speed (v1, v2) / p.v0) ≤ 2 / Real.pi * p.f0 * (Real.pi / 2) :=
            mul_le_mul_of_nonneg_left this (by positivity)
        _ = p.f0 := by field_simp
    | tabular => exact mul_le_of_le_one_right hf (min_le_left _ _)
    | linear => exact absurd h hk

/-- C102. The friction force is a Lipschitz function of the velocity (so the equations of motion need no event
handling), and never drives two velocities apart. -/
theorem C102_lipschitz (p : Sliding) (hv : 0 < p.v0) (hf : 0 ≤ p.f0) (v w R Q : ℝ × ℝ)
    (hR : p.friction v.1 v.2 = .ok R) (hQ : p.friction w.1 w.2 = .ok Q) :
    (R.1 - Q.1) ^ 2 + (R.2 - Q.2) ^ 2 ≤ (p.f0 / p.v0) ^ 2 * ((v.1 - w.1) ^ 2 + (v.2 - w.2) ^ 2) ∧
      (R.1 - Q.1) * (v.1 - w.1) + (R.2 - Q.2) * (v.2 - w.2) ≤ 0 := by
  rw [friction_eq p hv] at hR hQ
  obtain ⟨k, k1, k2, k3, k4⟩ := force_coef p hv hf v
  obtain ⟨l, l1, l2, l3, l4⟩ := force_coef p hv hf w
  rw [k1] at hR
  rw [l1] at hQ
  cases hR
  cases hQ
  simp only
  have hc := cs v w
  have h1 := speed_sq v
  have h2 := speed_sq w
  have hs0 := speed_nonneg v
  have hr0 := speed_nonneg w
  have hmon : 0 ≤ (k * speed v - l * speed w) * (speed v - speed w) ∧
      (k * speed v - l * speed w) ^ 2 ≤ slope p ^ 2 * (speed v - speed w) ^ 2 := by
    rw [k4, l4]
    rcases le_total (speed v) (speed w) with h | h
    · obtain ⟨a, b⟩ := law_mono p hv hf h
      exact ⟨by nlinarith, by rw [← mul_pow, ← neg_sq, neg_sub, ← neg_sq (slope p * _), ← mul_neg, neg_sub]; exact pow_le_pow_left₀ a b 2⟩
    · obtain ⟨a, b⟩ := law_mono p hv hf h
      exact ⟨mul_nonneg a (by linarith), by rw [← mul_pow]; exact pow_le_pow_left₀ a b 2⟩
  have hsl : 0 ≤ slope p := k2.trans k3
  have hle : slope p ≤ p.f0 / p.v0 := by
    unfold slope
    have : 0 ≤ p.f0 / p.v0 := div_nonneg hf hv.le
    cases p.kind with
    | atan =>
      refine mul_le_of_le_one_left this ?_
      rw [div_le_one Real.pi_pos]
      exact Real.two_le_pi
    | tabular => exact le_refl _
    | linear => exact le_refl _
  constructor
  · have hkl : k * l ≤ slope p ^ 2 := by rw [sq]; exact mul_le_mul k3 l3 l2 hsl
    have e1 : (-k * v.1 - -l * w.1) ^ 2 + (-k * v.2 - -l * w.2) ^ 2 =
        (k * speed v - l * speed w) ^ 2 + 2 * (k * l) * (speed v * speed w - (v.1 * w.1 + v.2 * w.2)) := by
      linear_combination (-k ^ 2) * h1 - l ^ 2 * h2
    have e2 : (v.1 - w.1) ^ 2 + (v.2 - w.2) ^ 2 =
        (speed v - speed w) ^ 2 + 2 * (speed v * speed w - (v.1 * w.1 + v.2 * w.2)) := by
      linear_combination -h1 - h2
    have hn : 0 ≤ (v.1 - w.1) ^ 2 + (v.2 - w.2) ^ 2 := by positivity
    refine le_trans ?_ (mul_le_mul_of_nonneg_right (pow_le_pow_left₀ hsl hle 2) hn)
    rw [e1, e2, mul_add]
    have := mul_le_mul_of_nonneg_right hkl (sub_nonneg.2 hc)
    linarith [hmon.2]
  · have e : (-k * v.1 - -l * w.1) * (v.1 - w.1) + (-k * v.2 - -l * w.2) * (v.2 - w.2) =
        -((k * speed v - l * speed w) * (speed v - speed w)) -
          (k + l) * (speed v * speed w - (v.1 * w.1 + v.2 * w.2)) := by
      linear_combination k * h1 + l * h2
    rw [e]
    have := mul_nonneg (add_nonneg k2 l2) (sub_nonneg.2 hc)
    linarith [hmon.1]

/-- What `rhs` computes. -/
theorem sliding_rhs (p : Sliding) (hm : p.mass ≠ 0) (dst : List ℝ) (t x1 x2 v1 v2 R1 R2 : ℝ)
    (hR : p.friction v1 v2 = .ok (R1, R2)) :
    p.rhs dst t [x1, x2, v1, v2] = .ok [v1, v2, (p.F1 + R1) / p.mass, (p.F2 * Real.sin (p.omega * t) + R2) / p.mass] := by
  have hr : ∃ a b c d, resized 4 dst = [a, b, c, d] := by
    have : (resized 4 dst).length = 4 := by simp [resized]
    match h : resized 4 dst, this with
    | [a, b, c, d], _ => exact ⟨a, b, c, d, rfl⟩
  obtain ⟨a, b, c, d, hr⟩ := hr
  have hd : ∀ a, div a p.mass = .ok (a / p.mass) := fun a => by unfold div; rw [if_neg hm]
  unfold Sliding.rhs
  simp only [hr]
  change (do
    let R ← p.friction v1 v2
    _ : Res (List ℝ)) = _
  rw [hR]
  change (do
    let u ← div (p.F1 + R1) p.mass
    _ : Res (List ℝ)) = _
  rw [hd]
  change (do
    let u ← div (p.F2 * Real.sin (p.omega * t) + R2) p.mass
    _ : Res (List ℝ)) = _
  rw [hd]
  rfl

/-- C102. Along every solution of the equations defined by the code kinetic energy grows at most at the rate of the
power of the two applied forces; without applied forces the speed never grows. -/
theorem C102_energy (p : Sliding) (hm : 0 < p.mass) (hv : 0 < p.v0) (hf : 0 ≤ p.f0) (a b : ℝ)
    (y : Fin 4 → ℝ → ℝ)
    (hsol : ∀ t ∈ Set.Icc a b, ∃ dy : Fin 4 → ℝ, p.rhs [] t [y 0 t, y 1 t, y 2 t, y 3 t] =
      .ok [dy 0, dy 1, dy 2, dy 3] ∧ ∀ i, HasDerivAt (y i) (dy i) t) :
    (∀ t ∈ Set.Icc a b, ∃ P, HasDerivAt (fun t => p.mass * (y 2 t ^ 2 + y 3 t ^ 2) / 2) P t ∧
      P ≤ p.F1 * y 2 t + p.F2 * Real.sin (p.omega * t) * y 3 t) ∧
    (p.F1 = 0 → p.F2 = 0 → AntitoneOn (fun t => y 2 t ^ 2 + y 3 t ^ 2) (Set.Icc a b)) := by
  have hder : ∀ t ∈ Set.Icc a b, ∃ P, HasDerivAt (fun t => p.mass * (y 2 t ^ 2 + y 3 t ^ 2) / 2) P t ∧
      P ≤ p.F1 * y 2 t + p.F2 * Real.sin (p.omega * t) * y 3 t := by
    intro t ht
    obtain ⟨dy, h1, h2⟩ := hsol t ht
    obtain ⟨R1, R2, r1, ⟨k, r2, r3, r4, _⟩, _⟩ := C102_opposes p hv hf (y 2 t) (y 3 t)
    rw [sliding_rhs p hm.ne' _ _ _ _ _ _ _ _ r1] at h1
    simp only [Except.ok.injEq, List.cons.injEq, and_true] at h1
    obtain ⟨-, -, d2, d3⟩ := h1
    have e := ((((h2 2).pow 2).add ((h2 3).pow 2)).const_mul p.mass).div_const 2
    refine ⟨_, e, le_of_eq_of_le (b := p.F1 * y 2 t + p.F2 * Real.sin (p.omega * t) * y 3 t -
      k * (y 2 t ^ 2 + y 3 t ^ 2)) ?_ (by nlinarith [sq_nonneg (y 2 t), sq_nonneg (y 3 t)])⟩
    rw [← d2, ← d3, r3, r4]
    have := hm.ne'
    field_simp
    ring
  refine ⟨hder, fun h1 h2 => ?_⟩
  have hanti : AntitoneOn (fun t => p.mass * (y 2 t ^ 2 + y 3 t ^ 2) / 2) (Set.Icc a b) := by
    refine antitoneOn_of_deriv_nonpos (convex_Icc a b) ?_ ?_ ?_
    · intro t ht
      obtain ⟨P, e, _⟩ := hder t ht
      exact e.continuousAt.continuousWithinAt
    · intro t ht
      obtain ⟨P, e, _⟩ := hder t (interior_subset ht)
      exact e.differentiableAt.differentiableWithinAt
    · intro t ht
      obtain ⟨P, e, hP⟩ := hder t (interior_subset ht)
      rw [e.deriv]
      simpa [h1, h2] using hP
  intro s hs t ht hst
  have := hanti hs ht hst
  simp only at this ⊢
  by_contra hc
  push Not at hc
  nlinarith

/-- C102. The friction type is written and read back; other texts are refused and leave the object as it was. -/
theorem C102_text (p : Sliding) (s : String) (m f v F G o : Option ℝ) :
    (∀ k : Friction, ∃ u, k.show = .ok u ∧ ∃ q, p.setParameters (some u) m f v F G o = .ok q ∧ q.kind = k) ∧
    (s ∉ ["atan", "tabular", "linear"] →
      p.setParameters (some s) m f v F G o = .error (.exc ("Unknown enum value '" ++ s ++ "'"))) := by
  constructor
  · intro k
    cases k <;> exact ⟨_, rfl, _, rfl, rfl⟩
  · intro h
    simp only [List.mem_cons, List.not_mem_nil, or_false, not_or] at h
    obtain ⟨h1, h2, h3⟩ := h
    have : Friction.read s = .error (.exc s!"Unknown enum value '{s}'") := by
      unfold Friction.read Friction.text
      simp [List.find?, h1, h2, h3]
    unfold Sliding.setParameters
    simp only [this]
    rfl

/-- The hypotheses are met by the default object; a point moving freely with linear friction slows down as
`exp (-t)`. -/
example : 0 < Sliding.default.v0 ∧ 0 ≤ Sliding.default.f0 ∧ 0 < Sliding.default.mass := by
  simp [Sliding.default]

example : ∀ t ∈ Set.Icc (0 : ℝ) 1, ∃ dy : Fin 4 → ℝ,
    (⟨.linear, 1, 1, 1, 0, 0, 0⟩ : Sliding).rhs [] t [-Real.exp (-t), 0, Real.exp (-t), 0] =
      .ok [dy 0, dy 1, dy 2, dy 3] ∧
    ∀ i, HasDerivAt ((![fun t => -Real.exp (-t), fun _ => 0, fun t => Real.exp (-t), fun _ => 0] :
      Fin 4 → ℝ → ℝ) i) (dy i) t := by
  intro t _
  have hp := Real.exp_pos (-t)
  have hfr : (⟨.linear, 1, 1, 1, 0, 0, 0⟩ : Sliding).friction (Real.exp (-t)) 0 = .ok (-Real.exp (-t), 0) := by
    have hs : speed (Real.exp (-t), 0) = Real.exp (-t) := by
      unfold speed; simp only [mul_zero, add_zero]; exact Real.sqrt_mul_self hp.le
    refine (friction_eq _ (by norm_num) (Real.exp (-t), 0)).trans ?_
    unfold force
    rw [hs, if_pos hp]
    simp [law]
  refine ⟨![Real.exp (-t), 0, -Real.exp (-t), 0], ?_, ?_⟩
  · rw [sliding_rhs _ (by norm_num) _ _ _ _ _ _ _ _ hfr]
    simp
  · have e : HasDerivAt (fun t => Real.exp (-t)) (-Real.exp (-t)) t := by
      have := (hasDerivAt_neg t).exp
      simpa using this
    intro i
    fin_cases i
    · have := e.fun_neg
      rw [neg_neg] at this
      exact this
    · exact hasDerivAt_const t 0
    · exact e
    · exact hasDerivAt_const t 0

end Verif.TestModels
