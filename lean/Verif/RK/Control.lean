import Verif.RK.Solver
import Mathlib.Analysis.SpecialFunctions.Pow.Real
import Mathlib.Tactic.Linarith
import Mathlib.Tactic.Positivity
import Mathlib.Tactic.NormNum

/-! # The step size controller -/

set_option linter.unusedSectionVars false

namespace Verif.RK

section
variable {K : Type} [Field K] [LinearOrder K] [IsStrictOrderedRing K]

theorem geomEps_pos : (0 : K) < geomEps := by unfold geomEps; positivity

theorem geomEps_lt : (geomEps : K) < 1 := by
  unfold geomEps
  rw [div_lt_one (by positivity)]
  norm_num

/-- Everything `controlStepSize` can do, for any power function. -/
theorem control_cases (c : CtlParams K) (pow : K → K → K) (h err order : K) :
    let p := pow (c.tolerance / err) (1 / (order + 1))
    let r := c.control pow h err order
    (err = 0 ∧ r = ⟨h, true, false⟩) ∨
    (err ≠ 0 ∧ 1 - geomEps < p ∧ r = ⟨h, true, false⟩) ∨
    (err ≠ 0 ∧ 1 ≤ p ∧ ∃ q, r = ⟨h * q, true, true⟩ ∧ q ≤ max (p * c.insurance) (c.maxThreshold / h) ∧
      (0 < c.incMax → q ≤ c.incMax) ∧
      (0 < c.maxThreshold → 0 < h → h * q ≤ c.maxThreshold) ∧
      (0 < c.incMin → (0 < c.incMax → c.incMin ≤ c.incMax) → c.incMin ≤ q)) ∨
    (err ≠ 0 ∧ p ≤ 1 - geomEps ∧ ∃ q, r = ⟨h * q, false, true⟩ ∧
      ((0 < c.decMax ∧ p * c.insurance < c.decMax ∧ q = c.decMax) ∨
        (q = p * c.insurance ∧ (0 < c.decMax → c.decMax ≤ q)))) := by
  intro p r
  have hr : r = c.control pow h err order := rfl
  clear_value r
  unfold CtlParams.control at hr
  have heps := geomEps_pos (K := K)
  by_cases he : err = 0
  · rw [if_pos he] at hr
    exact .inl ⟨he, hr⟩
  · rw [if_neg he] at hr
    refine .inr ?_
    change r = if 1 ≤ p then _ else _ at hr
    by_cases hp : 1 ≤ p
    · rw [if_pos hp] at hr
      simp only at hr
      by_cases ho : 0 < c.maxThreshold ∧ c.maxThreshold < p * c.insurance * h
      · have ho' : 0 < c.maxThreshold ∧
            c.maxThreshold < pow (c.tolerance / err) (1 / (order + 1)) * c.insurance * h := ho
        simp only [ho', true_and, and_self, if_true] at hr
        split at hr
        · exact .inl ⟨he, by linarith, hr⟩
        · split at hr
          · exact .inl ⟨he, by linarith, hr⟩
          · rename_i h1 h2
            refine .inr (.inl ⟨he, hp, _, hr, ?_, ?_, ?_, ?_⟩)
            · split
              · rename_i h3
                exact h3.2.le.trans (le_max_right _ _)
              · exact le_max_right _ _
            · intro h4; split
              · exact le_refl _
              · rename_i h3; push Not at h3; exact h3 h4
            · intro h5 h6
              split
              · rename_i h3
                have := h3.2.le
                rw [le_div_iff₀ h6] at this
                linarith
              · rw [mul_div_cancel₀ _ h6.ne']
            · intro h7 h8
              split
              · rename_i h3; exact h8 h3.1
              · push Not at h2; exact h2 h7
      · have ho' : ¬ (0 < c.maxThreshold ∧
            c.maxThreshold < pow (c.tolerance / err) (1 / (order + 1)) * c.insurance * h) := ho
        simp only [ho', false_and, if_false] at hr
        split at hr
        · exact .inl ⟨he, by linarith, hr⟩
        · rename_i h2
          refine .inr (.inl ⟨he, hp, _, hr, ?_, ?_, ?_, ?_⟩)
          · split
            · rename_i h3
              exact h3.2.le.trans (le_max_left _ _)
            · exact le_max_left _ _
          · intro h4; split
            · exact le_refl _
            · rename_i h3; push Not at h3; exact h3 h4
          · intro h5 h6
            push Not at ho
            have h7 := ho h5
            split
            · rename_i h3
              have := mul_le_mul_of_nonneg_left h3.2.le h6.le
              have e : h * (pow (c.tolerance / err) (1 / (order + 1)) * c.insurance)
                = p * c.insurance * h := mul_comm _ _
              linarith
            · have e : h * (pow (c.tolerance / err) (1 / (order + 1)) * c.insurance)
                = p * c.insurance * h := mul_comm _ _
              linarith
          · intro h7 h8
            split
            · rename_i h3; exact h8 h3.1
            · push Not at h2; exact h2 h7
    · rw [if_neg hp] at hr
      by_cases h1 : 1 - geomEps < p
      · have h1' : 1 - geomEps < pow (c.tolerance / err) (1 / (order + 1)) := h1
        rw [if_pos h1'] at hr
        exact .inl ⟨he, h1, hr⟩
      · have h1' : ¬ 1 - geomEps < pow (c.tolerance / err) (1 / (order + 1)) := h1
        rw [if_neg h1'] at hr
        refine .inr (.inr ⟨he, not_lt.1 h1, _, hr, ?_⟩)
        split
        · rename_i h2
          exact .inl ⟨h2.1, h2.2, rfl⟩
        · rename_i h2
          push Not at h2
          exact .inr ⟨rfl, h2⟩

end

/-- C29, acceptance in terms of the tolerance: within the tolerance the step is accepted; an
accepted step has an error at most `tol / (1 - ε)^(order + 1)`. -/
theorem C29_acceptance (c : CtlParams ℝ) (h err : ℝ) (order : Nat) (ht : 0 < c.tolerance)
    (he : 0 ≤ err) :
    (err ≤ c.tolerance → (c.control (· ^ ·) h err order).acceptStep = true) ∧
    ((c.control (· ^ ·) h err order).acceptStep = true →
      err * (1 - geomEps) ^ (order + 1) ≤ c.tolerance) := by
  have heps := geomEps_pos (K := ℝ)
  have heps' := geomEps_lt (K := ℝ)
  have hord : (0 : ℝ) < (order : ℝ) + 1 := by positivity
  constructor
  · intro hle
    rcases control_cases c (· ^ ·) h err order with ⟨_, h2⟩ | ⟨_, _, h2⟩ | ⟨_, _, q, h2, _⟩ |
      ⟨h1, h3, _⟩
    · rw [h2]
    · rw [h2]
    · rw [h2]
    · exfalso
      have hpos : 0 < err := lt_of_le_of_ne he (Ne.symm h1)
      have : (1 : ℝ) ≤ (c.tolerance / err) ^ (1 / ((order : ℝ) + 1)) :=
        Real.one_le_rpow ((one_le_div hpos).2 hle) (by positivity)
      linarith
  · intro hacc
    have key : err ≠ 0 → 1 - geomEps ≤ (c.tolerance / err) ^ (1 / ((order : ℝ) + 1)) →
        err * (1 - geomEps) ^ (order + 1) ≤ c.tolerance := by
      intro h1 h2
      have hpos : 0 < err := lt_of_le_of_ne he (Ne.symm h1)
      have hq : 0 ≤ c.tolerance / err := by positivity
      have := pow_le_pow_left₀ (by linarith) h2 (order + 1)
      rw [← Real.rpow_natCast ((c.tolerance / err) ^ (1 / ((order : ℝ) + 1))), ← Real.rpow_mul hq]
        at this
      have e : 1 / ((order : ℝ) + 1) * ((order + 1 : Nat) : ℝ) = 1 := by
        push_cast; field_simp
      rw [e, Real.rpow_one, le_div_iff₀ hpos] at this
      linarith
    rcases control_cases c (· ^ ·) h err order with ⟨h1, _⟩ | ⟨h1, h2, _⟩ | ⟨h1, h2, _⟩ |
      ⟨_, _, q, h2, _⟩
    · rw [h1, zero_mul]; exact ht.le
    · exact key h1 h2.le
    · exact key h1 (by linarith)
    · rw [h2] at hacc; cases hacc

/-- C29, rejection: the step size is changed to a positive one, smaller by a factor of at least
`max(insurance (1 - ε), decMax)`, and not smaller than `decMax h`. -/
theorem C29_rejection (c : CtlParams ℝ) (h err : ℝ) (order : Nat) (ht : 0 < c.tolerance)
    (he : 0 ≤ err) (hh : 0 < h) (hi : 0 < c.insurance)
    (hrej : (c.control (· ^ ·) h err order).acceptStep = false) :
    let r := c.control (· ^ ·) h err order
    r.changeStepSize = true ∧ 0 < r.newStepSize ∧
      r.newStepSize ≤ h * max (c.insurance * (1 - geomEps)) c.decMax ∧
      c.decMax * h ≤ r.newStepSize := by
  intro r
  have hr : r = c.control (· ^ ·) h err order := rfl
  rcases control_cases c (· ^ ·) h err order with ⟨_, h2⟩ | ⟨_, _, h2⟩ | ⟨_, _, q, h2, _⟩ |
    ⟨h1, h3, q, h2, h4⟩
  · rw [h2] at hrej; cases hrej
  · rw [h2] at hrej; cases hrej
  · rw [h2] at hrej; cases hrej
  · rw [hr, h2]
    have hpos : 0 < err := lt_of_le_of_ne he (Ne.symm h1)
    have hp : 0 < (c.tolerance / err) ^ (1 / ((order : ℝ) + 1)) := by positivity
    have hpi : 0 < (c.tolerance / err) ^ (1 / ((order : ℝ) + 1)) * c.insurance := by positivity
    refine ⟨rfl, ?_, ?_, ?_⟩
    · apply mul_pos hh
      rcases h4 with ⟨a, _, rfl⟩ | ⟨rfl, _⟩
      · exact a
      · exact hpi
    · apply mul_le_mul_of_nonneg_left _ hh.le
      rcases h4 with ⟨a, _, rfl⟩ | ⟨rfl, _⟩
      · exact le_max_right _ _
      · refine le_trans ?_ (le_max_left _ _)
        rw [mul_comm]
        exact mul_le_mul_of_nonneg_left h3 hi.le
    · show c.decMax * h ≤ h * q
      rw [mul_comm]
      apply mul_le_mul_of_nonneg_left _ hh.le
      rcases h4 with ⟨a, _, rfl⟩ | ⟨rfl, h5⟩
      · exact le_refl _
      · by_cases hd : 0 < c.decMax
        · exact h5 hd
        · exact le_trans (not_lt.1 hd) hpi.le

/-- C29, acceptance with a new step: within the configured factors and the maximal step. Without
a change the step size is the old one. -/
theorem C29_growth (c : CtlParams ℝ) (h err : ℝ) (order : Nat) (hh : 0 < h)
    (hacc : (c.control (· ^ ·) h err order).acceptStep = true) :
    let r := c.control (· ^ ·) h err order
    (r.changeStepSize = false → r.newStepSize = h) ∧
    (r.changeStepSize = true →
      (0 < c.incMax → r.newStepSize ≤ c.incMax * h) ∧
      (0 < c.maxThreshold → r.newStepSize ≤ c.maxThreshold) ∧
      (0 < c.incMin → (0 < c.incMax → c.incMin ≤ c.incMax) → c.incMin * h ≤ r.newStepSize)) := by
  intro r
  have hr : r = c.control (· ^ ·) h err order := rfl
  rcases control_cases c (· ^ ·) h err order with ⟨_, h2⟩ | ⟨_, _, h2⟩ | ⟨_, _, q, h2, _, a2, a3, a4⟩ |
    ⟨h1, h3, q, h2, h4⟩
  · rw [hr, h2]; simp
  · rw [hr, h2]; simp
  · rw [hr, h2]
    refine ⟨by simp, fun _ => ⟨fun h1 => ?_, fun h1 => a3 h1 hh, fun h1 h2 => ?_⟩⟩
    · show h * q ≤ c.incMax * h
      rw [mul_comm]; exact mul_le_mul_of_nonneg_right (a2 h1) hh.le
    · show c.incMin * h ≤ h * q
      rw [mul_comm h]; exact mul_le_mul_of_nonneg_right (a4 h1 h2) hh.le
  · rw [h2] at hacc; cases hacc

/-- C29, the new step size: with `p = (tol/err)^(1/(order+1))` a rejected step is multiplied by
`max (p · insurance) decMax`; an accepted step is multiplied by the minimum of `p · insurance` and
of the configured caps, or kept when the maximal step would make it smaller or the factor is below
`incMin`. -/
theorem C29_value (c : CtlParams ℝ) (h err : ℝ) (order : Nat) (ht : 0 < c.tolerance)
    (he : 0 < err) (hh : 0 < h) (hi : 0 < c.insurance) :
    let p := (c.tolerance / err) ^ (1 / ((order : ℝ) + 1))
    let q₀ := if 0 < c.maxThreshold then min (p * c.insurance) (c.maxThreshold / h)
      else p * c.insurance
    let q := if 0 < c.incMax then min q₀ c.incMax else q₀
    let keep := (0 < c.maxThreshold ∧ c.maxThreshold < min h (p * c.insurance * h)) ∨
      (0 < c.incMin ∧ q₀ < c.incMin)
    let r := c.control (· ^ ·) h err order
    (p ≤ 1 - geomEps → r = ⟨h * max (p * c.insurance) c.decMax, false, true⟩) ∧
    (1 - geomEps < p → p < 1 → r = ⟨h, true, false⟩) ∧
    (1 ≤ p → keep → r = ⟨h, true, false⟩) ∧
    (1 ≤ p → ¬ keep → r = ⟨h * q, true, true⟩) := by
  intro p q₀ q keep r
  have heps := geomEps_pos (K := ℝ)
  have hp : 0 < p := by positivity
  have hr : r = c.control (· ^ ·) h err order := rfl
  clear_value r
  unfold CtlParams.control at hr
  rw [if_neg he.ne'] at hr
  change r = if 1 ≤ p then _ else _ at hr
  have hpi : 0 < p * c.insurance := by positivity
  refine ⟨fun h1 => ?_, fun h1 h2 => ?_, forall_and.1 fun h1 => ?_⟩
  · rw [if_neg (by linarith), if_neg (by exact not_lt.2 h1)] at hr
    rw [hr]
    simp only
    congr 2
    change (if 0 < c.decMax ∧ p * c.insurance < c.decMax then c.decMax else p * c.insurance) = _
    split
    · rename_i h2; exact (max_eq_right h2.2.le).symm
    · rename_i h2
      push Not at h2
      by_cases hd : 0 < c.decMax
      · exact (max_eq_left (h2 hd)).symm
      · exact (max_eq_left ((not_lt.1 hd).trans hpi.le)).symm
  · rw [if_neg (by linarith), if_pos h1] at hr
    exact hr
  · rw [if_pos h1] at hr
    simp only at hr
    change r = if (0 < c.maxThreshold ∧ c.maxThreshold < p * c.insurance * h) ∧
      (if 0 < c.maxThreshold ∧ c.maxThreshold < p * c.insurance * h then c.maxThreshold / h
        else p * c.insurance) < 1 then _ else if 0 < c.incMin ∧
      (if 0 < c.maxThreshold ∧ c.maxThreshold < p * c.insurance * h then c.maxThreshold / h
        else p * c.insurance) < c.incMin then _ else (⟨h * (if 0 < c.incMax ∧ c.incMax <
      (if 0 < c.maxThreshold ∧ c.maxThreshold < p * c.insurance * h then c.maxThreshold / h
        else p * c.insurance) then c.incMax else
      (if 0 < c.maxThreshold ∧ c.maxThreshold < p * c.insurance * h then c.maxThreshold / h
        else p * c.insurance)), true, true⟩ : CtlResult ℝ) at hr
    have hq0 : (if 0 < c.maxThreshold ∧ c.maxThreshold < p * c.insurance * h then
        c.maxThreshold / h else p * c.insurance) = q₀ := by
      show _ = if 0 < c.maxThreshold then min (p * c.insurance) (c.maxThreshold / h)
        else p * c.insurance
      by_cases hm : 0 < c.maxThreshold
      · rw [if_pos hm]
        split
        · rename_i h2
          exact (min_eq_right ((div_le_iff₀ hh).2 h2.2.le)).symm
        · rename_i h2
          push Not at h2
          exact (min_eq_left ((le_div_iff₀ hh).2 (h2 hm))).symm
      · rw [if_neg hm, if_neg (fun h => hm h.1)]
    rw [hq0] at hr
    have hq : (if 0 < c.incMax ∧ c.incMax < q₀ then c.incMax else q₀) = q := by
      show _ = if 0 < c.incMax then min q₀ c.incMax else q₀
      by_cases hm : 0 < c.incMax
      · rw [if_pos hm]
        split
        · rename_i h2
          exact (min_eq_right h2.2.le).symm
        · rename_i h2
          push Not at h2
          exact (min_eq_left (h2 hm)).symm
      · rw [if_neg hm, if_neg (fun h => hm h.1)]
    rw [hq] at hr
    have hkeep : keep ↔ ((0 < c.maxThreshold ∧ c.maxThreshold < p * c.insurance * h) ∧ q₀ < 1) ∨
        (0 < c.incMin ∧ q₀ < c.incMin) := by
      show (_ ∨ _) ↔ _
      refine or_congr ?_ Iff.rfl
      constructor
      · rintro ⟨a, b⟩
        rw [lt_min_iff] at b
        refine ⟨⟨a, b.2⟩, ?_⟩
        show (if 0 < c.maxThreshold then min (p * c.insurance) (c.maxThreshold / h)
          else p * c.insurance) < 1
        rw [if_pos a]
        exact lt_of_le_of_lt (min_le_right _ _) ((div_lt_one hh).2 b.1)
      · rintro ⟨⟨a, b⟩, d⟩
        refine ⟨a, lt_min_iff.2 ⟨?_, b⟩⟩
        change (if 0 < c.maxThreshold then min (p * c.insurance) (c.maxThreshold / h)
          else p * c.insurance) < 1 at d
        rw [if_pos a, min_eq_right ((div_le_iff₀ hh).2 b.le)] at d
        exact (div_lt_one hh).1 d
    constructor
    · intro hk
      rcases hkeep.1 hk with h2 | h2
      · rw [if_pos h2] at hr; exact hr
      · by_cases h3 : (0 < c.maxThreshold ∧ c.maxThreshold < p * c.insurance * h) ∧ q₀ < 1
        · rw [if_pos h3] at hr; exact hr
        · rw [if_neg h3, if_pos h2] at hr; exact hr
    · intro hk
      rw [hkeep] at hk
      push Not at hk
      rw [if_neg (fun h => absurd (hk.1 h.1) (not_le.2 h.2)),
        if_neg (fun h => absurd (hk.2 h.1) (not_le.2 h.2))] at hr
      exact hr

/-- With the default parameters and step 1, an error of 2⁶·1e-6 with order 5 halves the step (times
0.8), zero error keeps it. -/
example : (CtlParams.default : CtlParams ℝ).control (· ^ ·) 1 (64 / 1000000) 5
    = ⟨1 * (1 / 2 * (8 / 10)), false, true⟩ := by
  have hp : ((CtlParams.default : CtlParams ℝ).tolerance / (64 / 1000000)) ^ (1 / ((5 : ℝ) + 1))
      = 1 / 2 := by
    have : (CtlParams.default : CtlParams ℝ).tolerance / (64 / 1000000) = (1 / 2 : ℝ) ^ (6 : ℝ) := by
      unfold CtlParams.default
      have : (6 : ℝ) = ((6 : Nat) : ℝ) := by norm_num
      rw [this, Real.rpow_natCast]
      norm_num
    rw [this, ← Real.rpow_mul (by norm_num)]
    norm_num
  unfold CtlParams.control
  simp only [hp]
  unfold CtlParams.default geomEps
  norm_num

/-- C29 for a controller as it is created: an error up to 1e-6 is accepted, an accepted one is at most that up to the
epsilon of 1e-5; after a rejection the step is between 0.1 and 0.8 of what it was; after an acceptance it is kept or grows
by a factor from 1.3 to 2, however large it is, by 2 when the error is small. -/
theorem C29_default (h err : ℝ) (order : Nat) (he : 0 < err) (hh : 0 < h) :
    let r := (CtlParams.default : CtlParams ℝ).control (· ^ ·) h err order
    (err ≤ 1 / 1000000 → r.acceptStep = true) ∧
    (r.acceptStep = true → err * (1 - 1 / 100000) ^ (order + 1) ≤ 1 / 1000000 ∧
      (r.newStepSize = h ∨ (13 / 10 * h ≤ r.newStepSize ∧ r.newStepSize ≤ 2 * h))) ∧
    (r.acceptStep = false →
      1 / 10 * h ≤ r.newStepSize ∧ r.newStepSize ≤ h * (8 / 10 * (1 - 1 / 100000))) ∧
    (err * (5 / 2) ^ (order + 1) ≤ 1 / 1000000 → r.newStepSize = 2 * h) := by
  intro r
  have ht : 0 < (CtlParams.default : CtlParams ℝ).tolerance := by unfold CtlParams.default; norm_num
  have hi : 0 < (CtlParams.default : CtlParams ℝ).insurance := by unfold CtlParams.default; norm_num
  obtain ⟨a1, a2⟩ := C29_acceptance CtlParams.default h err order ht he.le
  refine ⟨a1, fun hacc => ⟨a2 hacc, ?_⟩, fun hrej => ?_, fun hsmall => ?_⟩
  · obtain ⟨b1, b2⟩ := C29_growth CtlParams.default h err order hh hacc
    cases hc : r.changeStepSize with
    | false => exact .inl (b1 hc)
    | true =>
      obtain ⟨c1, -, c3⟩ := b2 hc
      refine .inr ⟨c3 ?_ ?_, c1 ?_⟩ <;> unfold CtlParams.default <;> norm_num
  · obtain ⟨-, -, c1, c2⟩ := C29_rejection CtlParams.default h err order ht he.le hh hi hrej
    refine ⟨c2, c1.trans_eq ?_⟩
    unfold CtlParams.default geomEps
    norm_num
  · obtain ⟨-, -, -, v⟩ := C29_value CtlParams.default h err order ht he hh hi
    have hp : (5 / 2 : ℝ) ≤ ((CtlParams.default : CtlParams ℝ).tolerance / err) ^ (1 / ((order : ℝ) + 1)) := by
      have hq : (5 / 2 : ℝ) ^ (order + 1) ≤ (CtlParams.default : CtlParams ℝ).tolerance / err := by
        rw [le_div_iff₀ he, mul_comm]
        exact hsmall
      have := Real.rpow_le_rpow (by positivity) hq (by positivity : (0 : ℝ) ≤ 1 / ((order : ℝ) + 1))
      rwa [← Real.rpow_natCast, ← Real.rpow_mul (by norm_num), Nat.cast_add, Nat.cast_one,
        mul_one_div_cancel (by positivity), Real.rpow_one] at this
    generalize ((CtlParams.default : CtlParams ℝ).tolerance / err) ^ (1 / ((order : ℝ) + 1)) = p at hp v
    have e := v (by linarith) (by
      unfold CtlParams.default
      simp only [lt_irrefl, false_and, if_false, false_or, not_and, not_lt]
      intro _
      linarith)
    show r.newStepSize = _
    change r = _ at e
    rw [e]
    unfold CtlParams.default
    simp only [lt_irrefl, if_false]
    rw [if_pos (by norm_num), min_eq_right (by linarith)]
    ring

end Verif.RK
