import Verif.Util.Props
import Mathlib.Analysis.Calculus.Deriv.Mul
import Mathlib.Analysis.Calculus.Deriv.Add
import Mathlib.Analysis.Calculus.Deriv.Pow

/-
C57: the basis functions on an interval of any length.
-/

namespace Verif.Util.Cubic

private theorem poly_deriv (a b c d x : ℝ) :
    HasDerivAt (fun x : ℝ => a + b * x + c * x ^ 2 + d * x ^ 3) (b + 2 * c * x + 3 * d * x ^ 2) x := by
  have h1 := (hasDerivAt_id' x).const_mul b
  have h2 := ((hasDerivAt_id' x).pow 2).const_mul c
  have h3 := ((hasDerivAt_id' x).pow 3).const_mul d
  have h4 : HasDerivAt (fun x : ℝ => a + b * x + c * x ^ 2 + d * x ^ 3)
      (b * 1 + c * ((2 : ℕ) * x ^ (2 - 1) * 1) + d * ((3 : ℕ) * x ^ (3 - 1) * 1)) x := ((h1.const_add a).add h2).add h3
  have e : b * 1 + c * (((2 : ℕ) : ℝ) * x ^ (2 - 1) * 1) + d * (((3 : ℕ) : ℝ) * x ^ (3 - 1) * 1)
      = b + 2 * c * x + 3 * d * x ^ 2 := by
    push_cast
    ring
  rwa [e] at h4

private theorem deriv_congr {f g : ℝ → ℝ} {a b x : ℝ} (h : HasDerivAt f a x) (e : g = f) (e' : b = a) : HasDerivAt g b x := by
  rw [e, e']; exact h

/-- C57. On an interval of length `L`, the functions with `d` and `d2` in their names are the first and second derivatives of the
ones without, at every point. -/
theorem C57_scaled_derivatives (L : ℝ) (hL : L ≠ 0) :
    ∀ q ∈ [(f00 (K := ℝ), df00 (K := ℝ), d2f00 (K := ℝ), 0), (f01, df01, d2f01, 0), (f10, df10, d2f10, 1), (f11, df11, d2f11, 1)],
      ∃ F F' F'' : ℝ → ℝ, (∀ x, scaled q.1 q.2.2.2 0 x L = .ok (F x)) ∧ (∀ x, scaled q.2.1 0 (1 - q.2.2.2) x L = .ok (F' x)) ∧
        (∀ x, scaled q.2.2.1 0 (2 - q.2.2.2) x L = .ok (F'' x)) ∧
        ∀ x, HasDerivAt F (F' x) x ∧ HasDerivAt F' (F'' x) x := by
  intro q hq
  refine ⟨fun x => q.1 (x / L) * L ^ q.2.2.2 / L ^ 0, fun x => q.2.1 (x / L) * L ^ 0 / L ^ (1 - q.2.2.2),
    fun x => q.2.2.1 (x / L) * L ^ 0 / L ^ (2 - q.2.2.2), fun x => by simp only [scaled, if_neg hL],
    fun x => by simp only [scaled, if_neg hL], fun x => by simp only [scaled, if_neg hL], fun x => ?_⟩
  simp only [List.mem_cons, List.not_mem_nil, or_false] at hq
  rcases hq with rfl | rfl | rfl | rfl
  · constructor
    · refine deriv_congr (poly_deriv 1 0 (-3 / L ^ 2) (2 / L ^ 3) x) ?_ ?_
      · funext x; simp only [f00]; field_simp; ring
      · simp only [df00]; field_simp; ring
    · refine deriv_congr (poly_deriv 0 (-6 / L ^ 2) (6 / L ^ 3) 0 x) ?_ ?_
      · funext x; simp only [df00]; field_simp; ring
      · simp only [d2f00]; field_simp; ring
  · constructor
    · refine deriv_congr (poly_deriv 0 0 (3 / L ^ 2) (-2 / L ^ 3) x) ?_ ?_
      · funext x; simp only [f01]; field_simp; ring
      · simp only [df01]; field_simp; ring
    · refine deriv_congr (poly_deriv 0 (6 / L ^ 2) (-6 / L ^ 3) 0 x) ?_ ?_
      · funext x; simp only [df01]; field_simp; ring
      · simp only [d2f01]; field_simp; ring
  · constructor
    · refine deriv_congr (poly_deriv 0 1 (-2 / L) (1 / L ^ 2) x) ?_ ?_
      · funext x; simp only [f10]; field_simp; ring
      · simp only [df10]; field_simp; ring
    · refine deriv_congr (poly_deriv 1 (-4 / L) (3 / L ^ 2) 0 x) ?_ ?_
      · funext x; simp only [df10]; field_simp; ring
      · simp only [d2f10]; field_simp; ring
  · constructor
    · refine deriv_congr (poly_deriv 0 0 (-1 / L) (1 / L ^ 2) x) ?_ ?_
      · funext x; simp only [f11]; field_simp; ring
      · simp only [df11]; field_simp; ring
    · refine deriv_congr (poly_deriv 0 (-2 / L) (3 / L ^ 2) 0 x) ?_ ?_
      · funext x; simp only [df11]; field_simp; ring
      · simp only [d2f11]; field_simp; ring

/-- The value in the middle of an interval of length 4, with slopes 1 and -1 -/
example : ∃ c d, scaled (f10 (K := ℚ)) 1 0 2 4 = .ok c ∧ scaled (f11 (K := ℚ)) 1 0 2 4 = .ok d ∧ 1 * c + (-1) * d = 1 :=
  ⟨1 / 2, -1 / 2, by norm_num [scaled, f10], by norm_num [scaled, f11], by norm_num⟩

end Verif.Util.Cubic
