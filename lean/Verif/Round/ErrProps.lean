import Verif.Round.StepErr
import Verif.RK.Converge

/-! # C126: the error of a run with fixed steps when arithmetic rounds -/

set_option linter.unusedSectionVars false

namespace Verif.Round

open Verif.Res Verif.RK Verif.Driver Set Filter Topology

/-- Without rounding, the operations of a step give the output of the tableau. -/
theorem opStep_exact {F : Type} [AddCommGroup F] [Module ℝ F] {co : Coefficients ℚ} {s : Nat} (hs : co.Sizes s 1)
    (hl : co.lastK = -1) (f : ℝ → F → F) (t h : ℝ) (x : F) :
    opStep (co.cast ℝ) f t h x = ((co.cast ℝ).tableau s).output f t h x 0 := by
  have hc : (co.cast ℝ).c.length + 1 = s := (cast_sizes co hs).c
  have hl' : (co.cast ℝ).lastK = -1 := hl
  obtain ⟨o1, a1, -, -, a4⟩ := output_cast co s 1 0 hs (by decide) (by unfold OutputCheck; rw [hl]; rfl) f t h x
    (Output.mk' s 1) (by simp [Output.mk']) (by simp [Output.mk'])
  obtain ⟨o2, b1, b2, b3, b4, -⟩ := compute_ops (Output.mk' s 1) (co.cast ℝ) f x t h (by simpa [Output.mk'] using cast_sizes co hs)
  rw [a1] at b1
  cases b1
  have b4 := b4 0 (by simp [Output.mk']) (by rw [hl']; decide)
  have e : (Output.mk' s 1 : Output F).k.length = s := by simp [Output.mk']
  rw [List.getD_eq_getElem?_getD, a4, b2, e] at b4
  simp only [Nat.zero_mul, List.drop_zero, Option.getD_some] at b4
  unfold opStep
  rw [hc, b4]

/-- The solver with fixed steps and the coded tableau `co` makes samples of order `p` also when arithmetic rounds. For every smooth
system with the solution `y` there are constants such that for every rounding, with unit roundoff `u`, every way to evaluate the
right-hand side with an error of at most `η` near the solution, and every initial state at most `ι` away from that of the solution:
if the step `h`, the quotient `u / h`, `η` and `ι` are small, `solveOde` returns at a time not before the end time as the program
computes it and at most two steps after the one asked for, and all samples, and the state in the end, are within
`C (h^p + u / h + η + ι)` of the solution at the times shown. -/
def RoundedRuns (co : Coefficients ℚ) (p : Nat) : Prop :=
  ∀ {n : Nat} (f : ℝ → (Fin n → ℝ) → (Fin n → ℝ)) (y : ℝ → Fin n → ℝ) (t₀ b : ℝ)
    (_ : ∀ t ∈ Icc t₀ b, ContDiffAt ℝ (p + 1 : Nat) (fun z : ℝ × (Fin n → ℝ) => f z.1 z.2) (t, y t))
    (_ : ∀ t ∈ Icc t₀ b, ∀ᶠ s in 𝓝 t, HasDerivAt y (f s (y s)) s) (R : ℝ) (_ : 0 < R),
    ∃ C, ∃ δ > 0, ∀ (r : ℝ → ℝ) (u : ℝ) (_ : Rounds r u) (Q : Type) (m : Method (Rd r) (Vec r n) Q)
      (_ : m.co = round r (co.cast ℝ)) (_ : m.ec = none) (η : ℝ) (_ : 0 ≤ η) (_ : Evaluates m.rhs f y t₀ b R η)
      (h d ι : ℝ), 0 < h → h ≤ δ → u ≤ δ * h → η ≤ δ → ι ≤ δ → 0 ≤ d → t₀ + d + 2 * h ≤ b →
      ∀ (c : Outputs) (_ : c.Start) (s : FixedSt (Rd r) (Vec r n) Q) (_ : Ready m ⟨h⟩ s) (_ : s.t = ⟨t₀⟩)
        (_ : ‖s.x.val - y t₀‖ ≤ ι),
      ∃ N s' evs, solveOde (erk m) c ⟨d⟩ N s = some (evs, .ok s') ∧ (accepted evs).length = N ∧ s.t + ⟨d⟩ ≤ s'.t ∧
        s'.t.val ≤ t₀ + d + 2 * h ∧ ‖s'.x.val - y s'.t.val‖ ≤ C * (h ^ p + u / h + η + ι) ∧
        ∀ nt, .note nt ∈ evs → ‖nt.state.val - y nt.time.val‖ ≤ C * (h ^ p + u / h + η + ι)

set_option maxHeartbeats 1000000 in
theorem rounded_runs {co : Coefficients ℚ} {s p : Nat} (hsz : co.Sizes s 1) (hl : co.lastK = -1)
    (hr : RowCheck co s = true) (hc : OrderCheck co s 0 p = true) (hp : 1 ≤ p) : RoundedRuns co p := by
  intro n f y t₀ b hf hy R₀ hR₀
  have hys : ∀ t ∈ Icc t₀ b, ContDiffAt ℝ (p + 1 : Nat) y t := fun t ht => solution_contDiffAt (hf t ht) (hy t ht)
  obtain ⟨L, hL, B, hB, R₁, hR₁, hnear⟩ := tube (fun z : ℝ × (Fin n → ℝ) => f z.1 z.2) (fun t => (t, y t)) t₀ b
    (fun t ht => (hf t ht).of_le (by simp)) (fun t ht => continuousAt_id.prodMk (hys t ht).continuousAt)
  obtain ⟨Ly, -, Y, hY, Ry, hRy, hyb⟩ := tube y (fun t => t) t₀ b (fun t ht => (hys t ht).of_le (by simp))
    (fun t _ => continuousAt_id)
  have hR : 0 < min R₀ R₁ := lt_min hR₀ hR₁
  obtain ⟨cs, hcs, δ₁, hδ₁, serr⟩ := step_err (co.cast ℝ) hL hB hR hY
    (fun t ht z w hz hw => hnear t ht z w (hz.trans (min_le_right _ _)) (hw.trans (min_le_right _ _)))
    (fun t ht => (hyb t ht t t (by simpa using hRy.le) (by simpa using hRy.le)).2)
  obtain ⟨C, hC, δ₂, hδ₂, pert⟩ := one_step_perturbed p hp (fun t x h => ∑ i ∈ Finset.range s,
    ((co.cast ℝ).tableau s).b 0 i • ((co.cast ℝ).tableau s).stage f t h x i) y t₀ b
    (fun t ht => incr_contDiffAt ((co.cast ℝ).tableau s) (hf t ht) 0) hys
    (fun t ht => coded_local hr hc hp f t y (hf t ht) (hy t ht))
  obtain ⟨δ₃, hδ₃, pert⟩ := pert (min δ₁ δ₂) (lt_min hδ₁ hδ₂) (min_le_right _ _)
  set Tb := 2 * |t₀| + |b| + 1 with hTb
  have hTb1 : 1 ≤ Tb := by have := abs_nonneg t₀; have := abs_nonneg b; linarith
  set κ := cs + Tb with hκ
  have hκ1 : 1 ≤ κ := by linarith
  refine ⟨C * (κ + 1), min (min δ₁ (1 / 2)) (min (δ₃ / (2 * κ + 1)) (min δ₃ (1 / (4 * Tb)))), by positivity, ?_⟩
  intro r u hru Q m hco hec η hη hg h d ι hh hhd hud hηd hιd hd hb cc hcc s₀ hs₀ ht₀ hx₀
  have hu0 := hru.nonneg
  have hι0 : 0 ≤ ι := (norm_nonneg _).trans hx₀
  set q := u / h with hq
  have hq0 : 0 ≤ q := div_nonneg hu0 hh.le
  have hqh : q * h = u := div_mul_cancel₀ u hh.ne'
  have hqd : q ≤ min (min δ₁ (1 / 2)) (min (δ₃ / (2 * κ + 1)) (min δ₃ (1 / (4 * Tb)))) := by
    rw [hq, div_le_iff₀ hh]
    exact hud
  have m1 : ∀ {v : ℝ}, v ≤ min (min δ₁ (1 / 2)) (min (δ₃ / (2 * κ + 1)) (min δ₃ (1 / (4 * Tb)))) →
      v ≤ δ₁ ∧ v ≤ 1 / 2 ∧ v ≤ δ₃ / (2 * κ + 1) ∧ v ≤ δ₃ ∧ v ≤ 1 / (4 * Tb) := by
    intro v hv
    simp only [le_min_iff] at hv
    tauto
  obtain ⟨h1, h2, h3, h4, h5⟩ := m1 hhd
  obtain ⟨q1, q2, q3, q4, q5⟩ := m1 hqd
  obtain ⟨e1, e2, e3, e4, e5⟩ := m1 hηd
  obtain ⟨i1, i2, i3, i4, i5⟩ := m1 hιd
  have hu1 : u ≤ q := by rw [← hqh]; exact mul_le_of_le_one_right hq0 (by linarith)
  -- the clock
  have hω : 4 * (u * (|t₀| + d + h)) ≤ h := by
    have a1 : |t₀| + d + h ≤ Tb := by
      have := neg_abs_le t₀
      have := le_abs_self b
      linarith
    have a2 : u * (|t₀| + d + h) ≤ u * Tb := mul_le_mul_of_nonneg_left a1 hu0
    have a3 : q * Tb ≤ 1 / 4 := by
      have := mul_le_mul_of_nonneg_right q5 (show 0 ≤ Tb by linarith)
      have e : 1 / (4 * Tb) * Tb = 1 / 4 := by field_simp
      linarith
    have a4 : u * Tb = q * Tb * h := by rw [← hqh]; ring
    have a5 := mul_le_mul_of_nonneg_right a3 hh.le
    linarith
  have hlast : m.co.lastK = -1 := by rw [hco]; exact hl
  have hlen : m.co.c.length + 1 = s := by
    rw [hco]
    have := (cast_sizes (R := ℝ) co hsz).c
    simpa [round] using this
  have hsizes : m.co.Sizes (m.co.c.length + 1) 1 := by
    have hz := cast_sizes (R := ℝ) co hsz
    rw [hlen, hco]
    exact ⟨hz.pos, by simpa [round] using hz.a, by simpa [round] using hz.b, by simpa [round] using hz.c⟩
  obtain ⟨st, b0, bR, bst⟩ := steps_ops hec hlast hsizes hs₀
  obtain ⟨N, n1, n2, n3, n4⟩ := clock hru hh hd hω (τ := fun k => (st k).t.val) (by simp only [b0, ht₀])
    (fun k => by simp only [(bst k).2.1, Rd.val_add])
  obtain ⟨evs, hrun, hacc, hnotes⟩ := ops_run (fun k => (bst k).1) cc hcc ⟨d⟩ n1
    (fun k h1 h2 => by
      have := n2 k h1 h2
      rw [b0, ht₀]
      exact this)
    (by
      rw [b0, ht₀]
      exact n3)
  rw [b0] at hrun
  have hin : ∀ k ≤ N, (st k).t.val ∈ Icc t₀ b := by
    intro k hk
    obtain ⟨-, a2, a3⟩ := n4 k hk
    exact ⟨a2, by linarith⟩
  set ε := κ * (q + η) + ι with hε
  have hε0 : 0 ≤ ε := by positivity
  have hεd : ε ≤ δ₃ := by
    have a1 : κ * (q + η) ≤ κ * (2 * (δ₃ / (2 * κ + 1))) := mul_le_mul_of_nonneg_left (by linarith) (by linarith)
    have e : κ * (2 * (δ₃ / (2 * κ + 1))) + δ₃ / (2 * κ + 1) = δ₃ := by field_simp
    linarith
  have acc := pert h ε hh h4 hε0 hεd N (fun k => (st k).x.val) (fun k => (st k).t.val)
    (by
      simp only [b0]
      have : 0 ≤ κ * (q + η) := by positivity
      linarith)
    (by simp only [b0, ht₀])
    (fun k hk => by
      have hkin := hin k hk.le
      have hhε : h * ε = κ * (u + h * η) + h * ι := by rw [hε, ← hqh]; ring
      have hhι : 0 ≤ h * ι := by positivity
      have hhη : 0 ≤ h * η := by positivity
      constructor
      · simp only [(bst k).2.1, Rd.val_add]
        refine (hru.le _).trans ?_
        have a1 : |(st k).t.val + h| ≤ Tb := by
          have b1 := abs_add_le (st k).t.val h
          have b2 := abs_le_max_abs_abs hkin.1 hkin.2
          have b3 : max |t₀| |b| ≤ |t₀| + |b| := max_le (by linarith [abs_nonneg b]) (by linarith [abs_nonneg t₀])
          rw [abs_of_pos hh] at b1
          linarith [abs_nonneg t₀]
        have a2 : u * |(st k).t.val + h| ≤ u * κ := mul_le_mul_of_nonneg_left (by linarith) hu0
        have a3 : 0 ≤ κ * (h * η) := by positivity
        rw [hhε]
        linarith
      · intro hclose
        have a1 := serr hru (by linarith) η hη e1 m.rhs
          (fun t x t' ht' k1 k2 => hg t x t' ht' (k1.trans (min_le_left _ _)) (k2.trans (min_le_left _ _))) ⟨h⟩ (st k).t (st k).x
          hh.le h1 hkin (hclose.trans (min_le_left _ _))
        rw [opStep_exact hsz hl] at a1
        have a2 : (st (k + 1)).x = opStep (round r (co.cast ℝ)) m.rhs (st k).t ⟨h⟩ (st k).x := by rw [(bst k).2.2, hco]
        rw [← a2] at a1
        refine (le_of_eq ?_).trans (a1.trans ?_)
        · rfl
        · have a3 : cs * (u + h * η) ≤ κ * (u + h * η) := mul_le_mul_of_nonneg_right (by linarith) (by linarith)
          rw [hhε]
          show cs * (u + h * η) ≤ _
          linarith)
    hin
  have hfin : C * (h ^ p + ε) ≤ C * (κ + 1) * (h ^ p + q + η + ι) := by
    rw [mul_assoc]
    refine mul_le_mul_of_nonneg_left ?_ hC
    have a1 : 0 ≤ κ * h ^ p := by positivity
    have a2 : 0 ≤ κ * ι := by positivity
    have e : (κ + 1) * (h ^ p + q + η + ι) = κ * h ^ p + h ^ p + κ * (q + η) + (q + η) + κ * ι + ι := by ring
    rw [e, hε]
    linarith
  refine ⟨N, st N, evs, hrun, hacc, by rw [ht₀]; exact n3, ?_, (acc N le_rfl).trans hfin, fun nt hnt => ?_⟩
  · obtain ⟨-, a2, a3⟩ := n4 N le_rfl
    linarith
  · obtain ⟨k, hk, k1, k2⟩ := hnotes nt hnt
    rw [k1, k2]
    exact (acc k hk).trans hfin

/-- C126. Explicit Euler -/
theorem C126_euler : RoundedRuns euler 1 :=
  rounded_runs (s := 1) ⟨by decide, by decide, by decide, by decide⟩ rfl (by decide +kernel) euler_check (by decide)

/-- C126. The classical Runge-Kutta method -/
theorem C126_rk4 : RoundedRuns rk4 4 :=
  rounded_runs (s := 4) ⟨by decide, by decide, by decide, by decide⟩ rfl (by decide +kernel) rk4_check (by decide)

/-- In `double`, what is less than `2^-53` is lost when it is added to one. -/
theorem binary_one_add {h : ℚ} (hh : 0 < h) (hlt : h < 1 / 2 ^ 53) : binary 53 (1 + h) = 1 := by
  have habs : |1 + h| = 1 + h := abs_of_pos (by linarith)
  have hlt1 : h < 1 := hlt.trans (by norm_num)
  have hlog : Int.log 2 |1 + h| = 0 := by
    rw [habs]
    apply le_antisymm
    · have : Int.log 2 (1 + h) < 1 := (Int.lt_zpow_iff_log_lt (by norm_num) (by linarith)).1 (by norm_num; linarith)
      omega
    · exact (Int.zpow_le_iff_le_log (by norm_num) (by linarith)).1 (by simp; linarith)
  have hz : (1 + h) / (2 : ℚ) ^ ((0 : ℤ) + 1 - (53 : ℕ)) = 2 ^ 52 + h * 2 ^ 52 := by norm_num; ring
  have hlt2 : h * 2 ^ 52 < 1 / 2 := by linarith
  have hfl : ⌊(2 ^ 52 + h * 2 ^ 52 : ℚ)⌋ = 2 ^ 52 := by
    rw [Int.floor_eq_iff]
    push_cast
    constructor <;> linarith [mul_pos hh (show (0 : ℚ) < 2 ^ 52 by norm_num)]
  unfold binary
  rw [hlog, hz]
  unfold nearest
  rw [hfl, if_pos (by push_cast; linarith)]
  norm_num

/-- C126. The term `u / h` is needed: with smaller and smaller steps the samples do not come closer and closer to the solution.
In `double`, from the time one, no run with a step less than `2^-53` returns. -/
theorem C126_no_limit (h : ℚ) (hh : 0 < h) (hlt : h < 1 / 2 ^ 53) (fuel : Nat) :
    solveOde (erk oscillator) ⟨none, none, none⟩ ⟨1⟩ fuel (oscillatorAt 1 h) = none :=
  C125_absorbed oscillator rfl rfl ⟨by decide, by decide, by decide, by decide⟩ 1 1 h (binary_one_add hh hlt) (by decide +kernel)
    _ (by simp [Outputs.Start]) _ rfl (.inl ⟨rfl, rfl⟩) fuel

/-- A case for C126: `x' = -x` on `[0, 5]` with numbers of `q` binary digits. The sign is changed without an error; the initial state
is exact. -/
example : ∃ C, ∃ δ > 0, ∀ (q : Nat) (h d : ℝ), 0 < h → h ≤ δ → 1 / 2 ^ q ≤ δ * h → 0 ≤ d → 0 + d + 2 * h ≤ 5 →
    ∃ N s' evs, solveOde (erk (⟨round (binary q) (rk4.cast ℝ), fun _ x i => -x i, none⟩ :
        Method (Rd (binary q : ℝ → ℝ)) (Vec (binary q : ℝ → ℝ) 1) Unit)) ⟨none, none, none⟩ ⟨d⟩ N
        ⟨⟨0⟩, fun _ => ⟨1⟩, none, Output.mkEmpty, ⟨h⟩, (), []⟩ = some (evs, .ok s') ∧
      ‖s'.x.val - fun _ => Real.exp (-s'.t.val)‖ ≤ C * (h ^ 4 + 1 / 2 ^ q / h) := by
  obtain ⟨C, δ, hδ, key⟩ := C126_rk4 (n := 1) (fun _ x => -x) (fun t _ => Real.exp (-t)) 0 5 (fun t _ => contDiffAt_snd.neg)
    (fun t _ => Eventually.of_forall fun r => by
      rw [hasDerivAt_pi]
      intro i
      have := (hasDerivAt_neg r).exp
      simpa using this) 1 one_pos
  refine ⟨C, δ, hδ, fun q h d hh hle hu hd hb => ?_⟩
  obtain ⟨N, s', evs, a1, -, -, -, a2, -⟩ := key (binary q) (1 / 2 ^ q) (binary_rounds q) Unit
    ⟨round (binary q) (rk4.cast ℝ), fun _ x i => -x i, none⟩ rfl rfl 0 le_rfl
    (fun t x t' ht' _ _ => by
      refine (le_of_eq (norm_eq_zero.2 ?_))
      funext i
      exact sub_self (-(x i).val)) h d 0 hh hle hu hδ.le hδ.le hd hb ⟨none, none, none⟩ (by simp [Outputs.Start])
    ⟨⟨0⟩, fun _ => ⟨1⟩, none, Output.mkEmpty, ⟨h⟩, (), []⟩ (.inl ⟨rfl, rfl⟩) rfl (by
      refine le_of_eq (norm_eq_zero.2 ?_)
      funext i
      simp [Vec.val])
  refine ⟨N, s', evs, a1, a2.trans (le_of_eq ?_)⟩
  ring

end Verif.Round
