import Verif.RK.Pack
import Verif.RK.Orders
import Verif.RK.Taylor
import Verif.Witness
import Mathlib.Analysis.SpecialFunctions.ExpDeriv
import Mathlib.Tactic.IntervalCases

/-! # Properties of explicit Runge-Kutta methods -/

set_option linter.unusedSectionVars false

namespace Verif.RK

open Verif.Res Asymptotics Filter Topology
open scoped BigOperators

section
variable {R V : Type} [CommRing R] [DecidableEq R] [AddCommGroup V] [Module R V]

/-- C25. For every tableau with `s ≥ 1` stages and any number of outputs, packed as in the code,
the kernel computes the stages and outputs of the method, whatever the buffers contained. The
output taken from the last stage argument is the argument of the last stage. -/
theorem C25_kernel (T : Tableau R) (hs : 1 ≤ T.s) (h0 : T.c 0 = 0) (lastK : Int) (f : R → V → V)
    (x : V) (t h : R) (o : Output V) (hk : o.k.length = T.s) :
    ∃ o', compute o (T.pack o.x2.length lastK) f x t h = .ok o' ∧
      o'.k.length = T.s ∧ o'.x2.length = o.x2.length ∧
      (∀ i, i < T.s → o'.k[i]? = some (T.stage f t h x i)) ∧
      ∀ ix, ix < o.x2.length →
        ((ix : Int) ≠ lastK → o'.x2[ix]? = some (T.output f t h x ix)) ∧
        ((ix : Int) = lastK → 2 ≤ T.s → o'.x2[ix]?
          = some (x + h • ∑ j ∈ Finset.range (T.s - 1), T.a (T.s - 1) j • T.stage f t h x j)) := by
  obtain ⟨o', h1, h2, h3, h4, h5⟩ := compute_tableau o T (T.pack o.x2.length lastK) f x t h
    (pack_sizes T _ _ hs) hk (fun i j hi hj => pack_A T _ _ hi hj)
    (fun ix i hx hi => pack_B T _ _ hx hi) (fun i hi => pack_C T _ _ h0 hi)
  exact ⟨o', h1, h2, h3, h4, fun ix hx => ⟨(h5 ix hx).1, (h5 ix hx).2.1⟩⟩

/-- C25. If the last row of `a` and the weights of an output agree (and the weight of the last
stage is zero), taking the last stage argument is the same as computing the output. -/
theorem C25_last_stage (T : Tableau R) (hs : 2 ≤ T.s) (h0 : T.c 0 = 0) (f : R → V → V)
    (x : V) (t h : R) (o : Output V) (hk : o.k.length = T.s) (ix : Nat) (hx : ix < o.x2.length)
    (hrow : ∀ j, j < T.s - 1 → T.a (T.s - 1) j = T.b ix j) (hlast : T.b ix (T.s - 1) = 0) :
    ∃ o', compute o (T.pack o.x2.length ix) f x t h = .ok o' ∧
      o'.x2[ix]? = some (T.output f t h x ix) := by
  obtain ⟨o', h1, _, _, _, h5⟩ := C25_kernel T (by omega) h0 ix f x t h o hk
  refine ⟨o', h1, ?_⟩
  rw [(h5 ix hx).2 rfl hs, Tableau.output]
  obtain ⟨n, hn⟩ : ∃ n, T.s = n + 1 := ⟨T.s - 1, by omega⟩
  rw [hn, Finset.sum_range_succ, Nat.add_sub_cancel]
  rw [hn, Nat.add_sub_cancel] at hlast hrow
  rw [hlast, zero_smul, add_zero]
  congr 3
  apply Finset.sum_congr rfl
  intro j hj
  rw [Finset.mem_range] at hj
  rw [hrow j hj]

end

/-- Heun's method with an embedded Euler output, on `x' = t x` from `(1, 3)` with step `1/2`. -/
def heun : Tableau ℚ := ⟨2, fun _ _ => 1, fun ix i => if ix = 0 then 1/2 else if i = 0 then 1 else 0,
  fun i => if i = 0 then 0 else 1⟩

example : ∃ o', compute (⟨[7, 8], [9, 10], 11⟩ : Output ℚ) (heun.pack 2 1) (fun t x => t * x) 3 1
    (1/2) = .ok o' ∧ o'.k = [3, 27/4] ∧ o'.x2 = [87/16, 9/2] := by
  obtain ⟨o', h1, h2⟩ := exists_of_test
    (r := compute (⟨[7, 8], [9, 10], 11⟩ : Output ℚ) (heun.pack 2 1) (fun t x => t * x) 3 1 (1/2))
    (p := fun o => o.k == [3, 27/4] && o.x2 == [87/16, 9/2]) (by decide +kernel)
  rw [Bool.and_eq_true, beq_iff_eq, beq_iff_eq] at h2
  exact ⟨o', h1, h2⟩

section
variable {E : Type} [NormedAddCommGroup E] [NormedSpace ℝ E] [CompleteSpace E]

/-- Output `ix` of the kernel with the coded coefficients has the local error of a method of
order `p`, for every right-hand side that is `p` times continuously differentiable at the initial
point. -/
def HasOrder (co : Coefficients ℚ) (s n ix p : Nat) : Prop :=
  ∀ {E : Type} [NormedAddCommGroup E] [NormedSpace ℝ E] [CompleteSpace E] (f : ℝ → E → E) (t₀ : ℝ)
    (x₀ : E) (_ : ContDiffAt ℝ p (fun z : ℝ × E => f z.1 z.2) (t₀, x₀))
    (y : ℝ → E) (_ : y t₀ = x₀) (_ : ∀ᶠ t in 𝓝 t₀, HasDerivAt y (f t (y t)) t)
    (o : ℝ → Output E) (_ : ∀ h, (o h).k.length = s ∧ (o h).x2.length = n),
    ∃ x : ℝ → E, (∀ h, ∃ o', compute (o h) (co.cast ℝ) f x₀ t₀ h = .ok o' ∧
      o'.x2[ix]? = some (x h)) ∧
      (fun h => x h - y (t₀ + h)) =O[𝓝 0] fun h => h ^ (p + 1)

end

/-- The output is computed from `b`, or equals the last stage argument. -/
def OutputCheck (co : Coefficients ℚ) (s ix : Nat) : Bool :=
  decide ((ix : Int) ≠ co.lastK) ||
    (decide (2 ≤ s) && (List.range (s - 1)).all (fun j => co.A (s - 1) j == co.B s ix j) &&
      co.B s ix (s - 1) == 0)

/-- The kernel on a coded tableau. -/
theorem output_cast {E : Type} [AddCommGroup E] [Module ℝ E] (co : Coefficients ℚ) (s n ix : Nat)
    (hs : co.Sizes s n) (hix : ix < n) (ho : OutputCheck co s ix = true) (f : ℝ → E → E) (t h : ℝ)
    (x : E) (o : Output E) (hk : o.k.length = s) (hx : o.x2.length = n) :
    ∃ o', compute o (co.cast ℝ) f x t h = .ok o' ∧ o'.k.length = s ∧ o'.x2.length = n ∧
      o'.x2[ix]? = some (((co.cast ℝ).tableau s).output f t h x ix) := by
  subst hx
  obtain ⟨o', h1, h2, h3, _, h5⟩ := compute_tableau o ((co.cast ℝ).tableau s) (co.cast ℝ) f x t h
    (cast_sizes co hs) hk (fun _ _ _ _ => rfl) (fun _ _ _ _ => rfl) (fun _ _ => rfl)
  refine ⟨o', h1, h2, h3, ?_⟩
  unfold OutputCheck at ho
  rw [Bool.or_eq_true] at ho
  rcases ho with ho | ho
  · exact (h5 ix hix).1 (of_decide_eq_true ho)
  · by_cases hl : (ix : Int) = co.lastK
    · rw [Bool.and_eq_true, Bool.and_eq_true] at ho
      obtain ⟨⟨h2s, hrow⟩, hlast⟩ := ho
      have h2s := of_decide_eq_true h2s
      rw [beq_iff_eq] at hlast
      rw [(h5 ix hix).2.1 hl h2s, Tableau.output]
      show some (x + h • ∑ j ∈ Finset.range (s - 1), _)
        = some (x + h • ∑ i ∈ Finset.range s, _)
      obtain ⟨m, rfl⟩ : ∃ m, s = m + 1 := ⟨s - 1, by omega⟩
      rw [Finset.sum_range_succ, Nat.add_sub_cancel]
      rw [Nat.add_sub_cancel] at hlast hrow
      have e0 : ((co.cast ℝ).tableau (m + 1)).b ix m = 0 := by
        show (co.cast ℝ).B (m + 1) ix m = 0
        rw [cast_B, hlast, Rat.cast_zero]
      rw [e0, zero_smul, add_zero]
      congr 3
      apply Finset.sum_congr rfl
      intro j hj
      have := List.all_eq_true.1 hrow j (by simpa using hj)
      rw [beq_iff_eq] at this
      congr 1
      show (co.cast ℝ).A (m + 1 - 1) j = (co.cast ℝ).B (m + 1) ix j
      rw [cast_A, cast_B, Nat.add_sub_cancel, this]
    · exact (h5 ix hix).1 hl

theorem hasOrder_of_check {co : Coefficients ℚ} {s n ix p : Nat} (hs : co.Sizes s n)
    (hix : ix < n) (ho : OutputCheck co s ix = true) (hr : RowCheck co s = true)
    (hc : OrderCheck co s ix p = true) (hp : 1 ≤ p) : HasOrder co s n ix p := by
  intro E _ _ _ f t₀ x₀ hf y hy0 hy o hlen
  refine ⟨fun h => ((co.cast ℝ).tableau s).output f t₀ h x₀ ix, fun h => ?_, ?_⟩
  · obtain ⟨o', h1, _, _, h2⟩ := output_cast co s n ix hs hix ho f t₀ h x₀ (o h) (hlen h).1
      (hlen h).2
    exact ⟨o', h1, h2⟩
  · have := nonautonomous_order hf hp (co.cast ℝ).A ((co.cast ℝ).B s ix) (co.cast ℝ).C
      (fun i h => ((co.cast ℝ).tableau s).stage f t₀ h x₀ i) s
      (fun i hi => by
        rw [cast_C, rows_of_check co s hr i hi]
        push_cast
        exact Finset.sum_congr rfl (fun j _ => (cast_A co i j).symm))
      (fun i _ h => Tableau.stage_eq _ f t₀ h x₀ i) y hy0 hy
      (by
        have e := (orderConditions_of_check co s ix hc).cast (R := ℝ)
        intro t ht
        rw [← e t ht]
        congr 1
        · funext i j; exact cast_A co i j
        · funext i; exact cast_B co s ix i)
    exact this

/-- C26. The explicit Euler method has order 1. -/
theorem C26_euler : HasOrder euler 1 1 0 1 :=
  hasOrder_of_check ⟨by decide, by decide, by decide, by decide⟩ (by decide) (by decide +kernel)
    (by decide +kernel) euler_check (by decide)

/-- C26. The classical Runge-Kutta method has order 4. -/
theorem C26_rk4 : HasOrder rk4 4 1 0 4 :=
  hasOrder_of_check ⟨by decide, by decide, by decide, by decide⟩ (by decide) (by decide +kernel)
    (by decide +kernel) rk4_check (by decide)

/-- C26. The outputs of DOPRI45 have orders 5 and 4. -/
theorem C26_dopri45 : HasOrder dopri45 7 2 0 5 ∧ HasOrder dopri45 7 2 1 4 :=
  ⟨hasOrder_of_check ⟨by decide, by decide, by decide, by decide⟩ (by decide) (by decide +kernel)
    (by decide +kernel) dopri45_high (by decide),
   hasOrder_of_check ⟨by decide, by decide, by decide, by decide⟩ (by decide) (by decide +kernel)
    (by decide +kernel) dopri45_low (by decide)⟩

/-- C26. The outputs of DOPRI56 have orders 6 and 5. -/
theorem C26_dopri56 : HasOrder dopri56 8 2 0 6 ∧ HasOrder dopri56 8 2 1 5 :=
  ⟨hasOrder_of_check ⟨by decide, by decide, by decide, by decide⟩ (by decide) (by decide +kernel)
    (by decide +kernel) dopri56_high (by decide),
   hasOrder_of_check ⟨by decide, by decide, by decide, by decide⟩ (by decide) (by decide +kernel)
    (by decide +kernel) dopri56_low (by decide)⟩

/-- The hypotheses are met by `x' = x`, `x(0) = 1`: one step of RK4 is `exp h + O(h⁵)`. -/
example : ∃ x : ℝ → ℝ, (∀ h, ∃ o', compute (Output.mk' 4 1) (rk4.cast ℝ) (fun _ x : ℝ => x) 1 0 h
    = .ok o' ∧ o'.x2[0]? = some (x h)) ∧
    (fun h => x h - Real.exp (0 + h)) =O[𝓝 0] fun h : ℝ => h ^ 5 :=
  C26_rk4 (fun _ x => x) 0 1 contDiffAt_snd Real.exp Real.exp_zero
    (Eventually.of_forall (fun t => Real.hasDerivAt_exp t)) (fun _ => Output.mk' 4 1)
    (fun _ => ⟨by simp [Output.mk'], by simp [Output.mk']⟩)

/-- C27. Order conditions of DOPRI78 up to `1e-17` for all trees with at most 8 (7) vertices, and
nodes equal to the row sums up to `2e-17`. -/
theorem C27_defects (t : Tree) :
    (t.size ≤ 8 → |Tree.weight dopri78.A (dopri78.B 13 0) 13 t - Tree.exact t| ≤ 1 / 10 ^ 17) ∧
    (t.size ≤ 7 → |Tree.weight dopri78.A (dopri78.B 13 1) 13 t - Tree.exact t| ≤ 1 / 10 ^ 17) ∧
    (∀ i, i < 13 → |dopri78.C i - ∑ j ∈ Finset.range i, dopri78.A i j| ≤ 2 / 10 ^ 17) := by
  refine ⟨fun h => ?_, fun h => ?_, ?_⟩
  · have := defect_of_check dopri78 13 0 dopri78_high t h
    exact_mod_cast this
  · have := defect_of_check dopri78 13 1 dopri78_low t h
    exact_mod_cast this
  · exact rowDefect_of_check dopri78 13 dopri78_rows

/-- C27. For autonomous right-hand sides the local error of DOPRI78 is of order `h⁹` (`h⁸`) up to
a polynomial whose coefficients are those of the elementary differentials (one for each tree)
times at most `1e-17`. -/
theorem C27_local_error {E : Type} [NormedAddCommGroup E] [NormedSpace ℝ E] [CompleteSpace E]
    (f : E → E) (x₀ : E) (hf : ContDiffAt ℝ 8 f x₀) (y : ℝ → E) (h0 : y 0 = x₀)
    (hy : ∀ᶠ t in 𝓝 0, HasDerivAt y (f (y t)) t)
    (o : ℝ → Output E) (ho : ∀ h, (o h).k.length = 13 ∧ (o h).x2.length = 2) (t₀ : ℝ) (ix : Nat)
    (hix : ix < 2) :
    ∃ (x : ℝ → E) (δ : Tree → ℝ),
      (∀ h, ∃ o', compute (o h) (dopri78.cast ℝ) (fun _ => f) x₀ t₀ h = .ok o' ∧
        o'.x2[ix]? = some (x h)) ∧
      (∀ t, t.size ≤ 8 - ix → |δ t| ≤ 1 / 10 ^ 17) ∧
      (fun h => x h - y h
        - ∑ t ∈ Tree.upTo (8 - ix), (h ^ t.size * δ t) • Fdiff (taylorSeries f x₀) t)
        =O[𝓝 0] fun h => h ^ (9 - ix) := by
  have hs : dopri78.Sizes 13 2 := ⟨by decide, by decide, by decide, by decide⟩
  have hoc : OutputCheck dopri78 13 ix = true := by
    interval_cases ix <;> decide +kernel
  have hT := taylorAt_of_contDiffAt (q := 8 - ix) (hf.of_le (by
    have : (8 - ix : Nat) ≤ 8 := by omega
    exact_mod_cast this)) (by omega)
  have key := autonomous_defect hT (by omega) (dopri78.cast ℝ).A ((dopri78.cast ℝ).B 13 ix)
    (fun i h => ((dopri78.cast ℝ).tableau 13).stage (fun _ => f) t₀ h x₀ i) 13
    (fun i _ h => Tableau.stage_eq _ (fun _ => f) t₀ h x₀ i) y h0 hy
  refine ⟨fun h => ((dopri78.cast ℝ).tableau 13).output (fun _ => f) t₀ h x₀ ix,
    fun t => Tree.weight (dopri78.cast ℝ).A ((dopri78.cast ℝ).B 13 ix) 13 t - Tree.exact t,
    fun h => ?_, fun t ht => ?_, ?_⟩
  · obtain ⟨o', h1, _, _, h2⟩ := output_cast dopri78 13 2 ix hs hix hoc (fun _ => f) t₀ h x₀ (o h)
      (ho h).1 (ho h).2
    exact ⟨o', h1, h2⟩
  · have e : Tree.weight (dopri78.cast ℝ).A ((dopri78.cast ℝ).B 13 ix) 13 t - Tree.exact t
        = ((Tree.weight dopri78.A (dopri78.B 13 ix) 13 t - Tree.exact t : ℚ) : ℝ) := by
      rw [Rat.cast_sub, ← Tree.cast_weight, ← Tree.cast_exact]
      congr 2
      · funext i j; exact cast_A dopri78 i j
      · funext i; exact cast_B dopri78 13 ix i
    simp only
    rw [e, ← Rat.cast_abs]
    have hq : |Tree.weight dopri78.A (dopri78.B 13 ix) 13 t - Tree.exact t| ≤ 1 / 10 ^ 17 := by
      interval_cases ix
      · exact (C27_defects t).1 ht
      · exact (C27_defects t).2.1 ht
    have := (Rat.cast_le (K := ℝ)).2 hq
    refine this.trans (le_of_eq ?_)
    norm_num
  · have e : 8 - ix + 1 = 9 - ix := by omega
    rw [e] at key
    exact key

/-- C27. With the coefficients read as exact rationals the order conditions do not hold exactly,
not even for order 1. -/
theorem C27_exact_false : ¬ HasOrder dopri78 13 2 0 1 ∧ ¬ HasOrder dopri78 13 2 1 1 := by
  have key : ∀ ix, ix < 2 → Tree.weight dopri78.A (dopri78.B 13 ix) 13 .leaf ≠ 1 →
      ¬ HasOrder dopri78 13 2 ix 1 := by
    intro ix hix hne hord
    obtain ⟨x, hx, hO⟩ := hord (E := ℝ) (fun _ _ => 1) 0 0 contDiffAt_const id rfl
      (Eventually.of_forall (fun t => hasDerivAt_id t)) (fun _ => Output.mk' 13 2)
      (fun _ => ⟨by simp [Output.mk'], by simp [Output.mk']⟩)
    have hs : dopri78.Sizes 13 2 := ⟨by decide, by decide, by decide, by decide⟩
    have hoc : OutputCheck dopri78 13 ix = true := by
      interval_cases ix <;> decide +kernel
    have hxe : ∀ h, x h = h * (Tree.weight dopri78.A (dopri78.B 13 ix) 13 .leaf : ℚ) := by
      intro h
      obtain ⟨o', h1, h2⟩ := hx h
      obtain ⟨o'', h3, _, _, h4⟩ := output_cast dopri78 13 2 ix hs hix hoc
        (fun _ _ => (1 : ℝ)) 0 h 0 (Output.mk' 13 2) (by simp [Output.mk']) (by simp [Output.mk'])
      rw [h1] at h3
      cases h3
      rw [h2] at h4
      rw [Option.some.inj h4, Tableau.output, zero_add, smul_eq_mul]
      congr 1
      rw [Tree.weight]
      push_cast
      refine Finset.sum_congr rfl (fun i _ => ?_)
      rw [Tableau.stage_eq]
      show (dopri78.cast ℝ).B 13 ix i • (1 : ℝ) = _
      rw [cast_B, smul_eq_mul, Tree.eta]
      simp
    set w : ℝ := ((Tree.weight dopri78.A (dopri78.B 13 ix) 13 .leaf : ℚ) : ℝ) with hw
    have hw1 : w - 1 ≠ 0 := by
      intro h
      apply hne
      have : w = 1 := by linarith
      rw [hw] at this
      exact_mod_cast this
    have h2 : (fun h : ℝ => h) =O[𝓝 0] fun h : ℝ => h ^ 2 := by
      have : (fun h : ℝ => (w - 1)⁻¹ * (x h - id (0 + h))) =O[𝓝 0] fun h : ℝ => h ^ 2 :=
        hO.const_mul_left _
      refine this.congr_left (fun h => ?_)
      rw [hxe, zero_add, id]
      field_simp
    have h3 : (fun h : ℝ => h ^ 2) =o[𝓝 0] fun h : ℝ => h ^ 1 := isLittleO_pow_pow (by norm_num)
    have h4 := h2.trans_isLittleO h3
    simp only [pow_one] at h4
    have h5 := isLittleO_irrefl' (l := 𝓝[≠] (0 : ℝ)) (f' := fun h : ℝ => h) (by
      apply Filter.Eventually.frequently
      filter_upwards [self_mem_nhdsWithin] with h hh
      simpa using hh)
    exact h5 (h4.mono nhdsWithin_le_nhds)
  refine ⟨key 0 (by norm_num) ?_, key 1 (by norm_num) ?_⟩
  · rw [weight_eq_dotL]; decide +kernel
  · rw [weight_eq_dotL]; decide +kernel

end Verif.RK
