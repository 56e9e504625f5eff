import Verif.Round.TimeProps
import Verif.Round.Perturb

/-! # The rounding error of one step -/

set_option linter.unusedSectionVars false

namespace Verif.Round

open Verif.Res Verif.RK Set

section
variable {r : ℝ → ℝ} {u : ℝ}

theorem Rounds.again (hr : Rounds r u) (hu : u ≤ 1) {p q c : ℝ} (h : |p - q| ≤ c * u * |q|) :
    |r p - q| ≤ (c + 1 + c) * u * |q| := by
  have h1 := hr.le p
  have h2 : |p| ≤ |q| + c * u * |q| := by have := abs_sub_abs_le_abs_sub p q; linarith
  have h3 : 0 ≤ c * u * |q| := (abs_nonneg _).trans h
  have h4 : u * |p| ≤ u * |q| + c * u * |q| := by
    have a1 := mul_le_mul_of_nonneg_left h2 hr.nonneg
    have a2 := mul_le_mul_of_nonneg_right hu h3
    linarith
  have e : r p - q = (r p - p) + (p - q) := by ring
  have := abs_add_le (r p - p) (p - q)
  rw [← e] at this
  linarith

/-- The product of the step and a coefficient -/
theorem coef_err (hr : Rounds r u) (hu : u ≤ 1) (h a : ℝ) : |r (h * r a) - h * a| ≤ 3 * u * |h * a| := by
  have h1 : |h * r a - h * a| ≤ 1 * u * |h * a| := by
    rw [← mul_sub, abs_mul, abs_mul]
    have := mul_le_mul_of_nonneg_left (hr.le a) (abs_nonneg h)
    linarith
  have := hr.again hu h1
  linarith

/-- One summand -/
theorem add_err (hr : Rounds r u) (hu : u ≤ 1) (x h a k : ℝ) :
    |r (x + r (r (h * r a) * k)) - (x + h * a * k)| ≤ u * |x| + 15 * u * |h * a * k| := by
  have h1 : |r (h * r a) * k - h * a * k| ≤ 3 * u * |h * a * k| := by
    rw [← sub_mul, abs_mul, abs_mul (h * a) k]
    have := mul_le_mul_of_nonneg_right (coef_err hr hu h a) (abs_nonneg k)
    linarith
  have h2 := hr.again hu h1
  generalize r (r (h * r a) * k) = P at h2
  generalize h * a * k = q at h2
  have h3 := hr.le (x + P)
  have h4 : |P| ≤ |q| + 7 * u * |q| := by have := abs_sub_abs_le_abs_sub P q; linarith
  have h5 : u * |x + P| ≤ u * |x| + 8 * u * |q| := by
    have a1 := abs_add_le x P
    have a2 : u * |q| ≤ |q| := mul_le_of_le_one_left (abs_nonneg q) hu
    have a3 := mul_le_mul_of_nonneg_left (show |x + P| ≤ |x| + 8 * |q| by linarith) hr.nonneg
    linarith
  have e : r (x + P) - (x + q) = (r (x + P) - (x + P)) + (P - q) := by ring
  have := abs_add_le (r (x + P) - (x + P)) (P - q)
  rw [← e] at this
  linarith

/-- The time of a stage -/
theorem time_err (hr : Rounds r u) (hu : u ≤ 1) (t h c : ℝ) :
    |r (t + r (h * r c)) - (t + h * c)| ≤ u * |t| + 7 * u * |h * c| := by
  have h2 := coef_err hr hu h c
  generalize r (h * r c) = P at h2
  generalize h * c = q at h2
  have h3 := hr.le (t + P)
  have h4 : |P| ≤ |q| + 3 * u * |q| := by have := abs_sub_abs_le_abs_sub P q; linarith
  have h5 : u * |t + P| ≤ u * |t| + 4 * u * |q| := by
    have a1 := abs_add_le t P
    have a2 : u * |q| ≤ |q| := mul_le_of_le_one_left (abs_nonneg q) hu
    have a3 := mul_le_mul_of_nonneg_left (show |t + P| ≤ |t| + 4 * |q| by linarith) hr.nonneg
    linarith
  have e : r (t + P) - (t + q) = (r (t + P) - (t + P)) + (P - q) := by ring
  have := abs_add_le (r (t + P) - (t + P)) (P - q)
  rw [← e] at this
  linarith

variable {n : Nat}

/-- One summand of a vector -/
theorem vec_err (hr : Rounds r u) (hu : u ≤ 1) (x k : Vec r n) (h : Rd r) (a : ℝ) :
    ‖(x + (h * Rd.lit r a) • k).val - (x.val + (h.val * a) • k.val)‖ ≤ u * ‖x.val‖ + 15 * u * (|h.val * a| * ‖k.val‖) := by
  have h0 : 0 ≤ u * ‖x.val‖ + 15 * u * (|h.val * a| * ‖k.val‖) := by
    have := hr.nonneg
    positivity
  rw [pi_norm_le_iff_of_nonneg h0]
  intro i
  have h1 := add_err hr hu (x i).val h.val a (k i).val
  have h2 : |(x i).val| ≤ ‖x.val‖ := norm_le_pi_norm x.val i
  have h3 : |(k i).val| ≤ ‖k.val‖ := norm_le_pi_norm k.val i
  have h4 : |h.val * a * (k i).val| ≤ |h.val * a| * ‖k.val‖ := by
    rw [abs_mul]
    exact mul_le_mul_of_nonneg_left h3 (abs_nonneg _)
  refine h1.trans (add_le_add (mul_le_mul_of_nonneg_left h2 hr.nonneg) (mul_le_mul_of_nonneg_left h4 ?_))
  have := hr.nonneg
  linarith

theorem lit_zero (hr : Rounds r u) (hu : u < 1) (a : ℝ) : (Rd.lit r a ≠ 0) ↔ a ≠ 0 := by
  have h := hr.le a
  constructor
  · rintro h1 rfl
    apply h1
    apply Rd.ext'
    simp only [abs_zero, mul_zero, sub_zero] at h
    exact abs_nonpos_iff.1 h
  · intro h1 h2
    have h3 : r a = 0 := congrArg Rd.val h2
    rw [h3, zero_sub, abs_neg] at h
    have := mul_lt_mul_of_pos_right hu (abs_pos.2 h1)
    linarith

/-- The error of a sum of stages, given those of the summands -/
theorem accum_err (as : List ℝ) : ∀ X B : ℝ, 0 ≤ X → 0 ≤ B → ∃ c, 0 ≤ c ∧ ∀ {r : ℝ → ℝ} {u : ℝ}, Rounds r u → u < 1 →
    ∀ (h : Rd r), 0 ≤ h.val → h.val ≤ 1 → ∀ γ, 0 ≤ γ → γ ≤ 1 → ∀ (ks : List (Vec r n)) (Ks : List (Fin n → ℝ)),
    List.Forall₂ (fun k K => ‖k.val - K‖ ≤ γ ∧ ‖K‖ ≤ B) ks Ks → ∀ (v : Vec r n) (w : Fin n → ℝ) (e : ℝ), ‖w‖ ≤ X →
    ‖v.val - w‖ ≤ e → ‖(accum h (as.map (Rd.lit r)) ks v).val - accum h.val as Ks w‖ ≤ c * (e + u + h.val * γ) := by
  induction as with
  | nil =>
    intro X B hX hB
    refine ⟨1, zero_le_one, ?_⟩
    intro r u hr hu h h0 h1 γ g0 g1 ks Ks _ v w e _ he
    simp only [List.map_nil, accum]
    have a1 := hr.nonneg
    have a2 := mul_nonneg h0 g0
    linarith
  | cons a as ih =>
    intro X B hX hB
    obtain ⟨c, hc, key⟩ := ih (X + |a| * B) B (by positivity) hB
    refine ⟨c * (4 + X + 2 * |a| + 15 * |a| * (B + 1)) + 1, by positivity, ?_⟩
    intro r u hr hu h h0 h1 γ g0 g1 ks Ks hks v w e hw he
    have hu0 := hr.nonneg
    have hhγ := mul_nonneg h0 g0
    have he0 : 0 ≤ e := (norm_nonneg _).trans he
    have hq0 : 0 ≤ e + u + h.val * γ := by linarith
    cases hks with
    | nil =>
      simp only [List.map_cons, accum]
      have : 0 ≤ c * (4 + X + 2 * |a| + 15 * |a| * (B + 1)) * (e + u + h.val * γ) := by positivity
      linarith
    | @cons k K ks Ks hk hks =>
      simp only [List.map_cons, accum]
      obtain ⟨k1, k2⟩ := hk
      have hstep : ‖(if Rd.lit r a ≠ 0 then v + (h * Rd.lit r a) • k else v).val - (if a ≠ 0 then w + (h.val * a) • K else w)‖ ≤
          (3 + X + 2 * |a| + 15 * |a| * (B + 1)) * (e + u + h.val * γ) ∧
          ‖(if a ≠ 0 then w + (h.val * a) • K else w)‖ ≤ X + |a| * B := by
        by_cases ha : a = 0
        · have h2 : ¬ (Rd.lit r a ≠ 0) := fun h => (lit_zero hr hu a).1 h ha
          rw [if_neg h2, if_neg (by simpa using ha)]
          refine ⟨he.trans ?_, by rw [ha]; simpa using hw⟩
          have : 0 ≤ (2 + X + 2 * |a| + 15 * |a| * (B + 1)) * (e + u + h.val * γ) := by positivity
          linarith
        · rw [if_pos ((lit_zero hr hu a).2 ha), if_pos ha]
          have e1 := vec_err hr hu.le v k h a
          have hha : |h.val * a| ≤ |a| := by
            rw [abs_mul, abs_of_nonneg h0]
            exact mul_le_of_le_one_left (abs_nonneg a) h1
          have hv : ‖v.val‖ ≤ X + e := by
            have := norm_sub_norm_le v.val w
            linarith
          have hkn : ‖k.val‖ ≤ B + 1 := by
            have := norm_sub_norm_le k.val K
            linarith
          constructor
          · have e2 : (v + (h * Rd.lit r a) • k).val - (w + (h.val * a) • K) =
                ((v + (h * Rd.lit r a) • k).val - (v.val + (h.val * a) • k.val)) + (v.val - w) + (h.val * a) • (k.val - K) := by
              module
            have e3 : ‖(h.val * a) • (k.val - K)‖ ≤ |a| * (h.val * γ) := by
              rw [norm_smul, Real.norm_eq_abs, abs_mul, abs_of_nonneg h0]
              have := mul_le_mul_of_nonneg_left k1 (mul_nonneg h0 (abs_nonneg a))
              linarith
            have e4 := (norm_add_le ((v + (h * Rd.lit r a) • k).val - (v.val + (h.val * a) • k.val)) (v.val - w))
            have e5 := (norm_add_le ((v + (h * Rd.lit r a) • k).val - (v.val + (h.val * a) • k.val) + (v.val - w))
              ((h.val * a) • (k.val - K)))
            have e6 : |h.val * a| * ‖k.val‖ ≤ |a| * (B + 1) := mul_le_mul hha hkn (norm_nonneg _) (abs_nonneg _)
            have e7 := mul_le_mul_of_nonneg_left e6 hu0
            have e8 := mul_le_mul_of_nonneg_left hv hu0
            have e9 : u * e ≤ e := mul_le_of_le_one_left he0 hu.le
            rw [e2]
            have f1 : 0 ≤ X * (e + h.val * γ) := by positivity
            have f2 : 0 ≤ |a| * (e + u) := by positivity
            have f3 : 0 ≤ 15 * |a| * (B + 1) * (e + h.val * γ) := by positivity
            have f4 : 0 ≤ |a| * (e + u + h.val * γ) := by positivity
            nlinarith
          · have e2 := norm_add_le w ((h.val * a) • K)
            rw [norm_smul, Real.norm_eq_abs] at e2
            have e3 := mul_le_mul hha k2 (norm_nonneg _) (abs_nonneg a)
            linarith
      have := key hr hu h h0 h1 γ g0 g1 ks Ks hks _ _ _ hstep.2 hstep.1
      refine this.trans ?_
      have f1 : (3 + X + 2 * |a| + 15 * |a| * (B + 1)) * (e + u + h.val * γ) + u + h.val * γ ≤
          (4 + X + 2 * |a| + 15 * |a| * (B + 1)) * (e + u + h.val * γ) := by nlinarith
      have f2 := mul_le_mul_of_nonneg_left f1 hc
      nlinarith

/-- A sum of stages is near its first summand. -/
theorem accum_near {F : Type} [NormedAddCommGroup F] [NormedSpace ℝ F] (as : List ℝ) : ∃ A, 0 ≤ A ∧ ∀ (h B : ℝ), 0 ≤ h → 0 ≤ B →
    ∀ (Ks : List F) (w : F), (∀ K ∈ Ks, ‖K‖ ≤ B) → ‖accum h as Ks w - w‖ ≤ h * A * B := by
  induction as with
  | nil =>
    refine ⟨0, le_refl 0, ?_⟩
    intro h B hh hB Ks w _
    simp [accum]
  | cons a as ih =>
    obtain ⟨A, hA, key⟩ := ih
    refine ⟨A + |a|, by positivity, ?_⟩
    intro h B hh hB Ks w hK
    have hpos : 0 ≤ h * |a| * B := by positivity
    cases Ks with
    | nil =>
      simp only [accum, sub_self, norm_zero]
      positivity
    | cons K Ks =>
      simp only [accum]
      have h1 := key h B hh hB Ks (if a ≠ 0 then w + (h * a) • K else w) (fun K' hK' => hK K' (by simp [hK']))
      have h2 : ‖(if a ≠ 0 then w + (h * a) • K else w) - w‖ ≤ h * |a| * B := by
        split
        · rw [add_sub_cancel_left, norm_smul, Real.norm_eq_abs, abs_mul, abs_of_nonneg hh]
          exact mul_le_mul_of_nonneg_left (hK K (by simp)) (by positivity)
        · simpa using hpos
      have h3 := norm_sub_le_norm_sub_add_norm_sub (accum h as Ks (if a ≠ 0 then w + (h * a) • K else w))
        (if a ≠ 0 then w + (h * a) • K else w) w
      linarith

/-- What is known of the right-hand side near the solution: within `R` of it, it is Lipschitz with constant `L` and bounded by
`B`. -/
def Near (f : ℝ → (Fin n → ℝ) → (Fin n → ℝ)) (y : ℝ → Fin n → ℝ) (t₀ b L B R : ℝ) : Prop :=
  ∀ t ∈ Icc t₀ b, ∀ z w : ℝ × (Fin n → ℝ), ‖z - (t, y t)‖ ≤ R → ‖w - (t, y t)‖ ≤ R →
    ‖f z.1 z.2 - f w.1 w.2‖ ≤ L * ‖z - w‖ ∧ ‖f z.1 z.2‖ ≤ B

/-- The program evaluates the right-hand side with an error of at most `η`, within `R` of the solution. -/
def Evaluates {r : ℝ → ℝ} (g : Rd r → Vec r n → Vec r n) (f : ℝ → (Fin n → ℝ) → (Fin n → ℝ)) (y : ℝ → Fin n → ℝ)
    (t₀ b R η : ℝ) : Prop :=
  ∀ (t : Rd r) (x : Vec r n), ∀ t' ∈ Icc t₀ b, |t.val - t'| ≤ R → ‖x.val - y t'‖ ≤ R → ‖(g t x).val - f t.val x.val‖ ≤ η

theorem lit_getD (hr : Rounds r u) (hu : u < 1) (l : List ℝ) (i : Nat) :
    (l.map (Rd.lit r)).getD i 0 = Rd.lit r (l.getD i 0) := by
  have h0 : Rd.lit r 0 = 0 := by
    by_contra h
    exact (lit_zero hr hu 0).1 h rfl
  rw [List.getD_eq_getElem?_getD, List.getD_eq_getElem?_getD, List.getElem?_map]
  cases l[i]? with
  | none => exact h0.symm
  | some a => rfl

set_option maxHeartbeats 1000000 in
/-- The errors of the stages -/
theorem stages_err (co : Coefficients ℝ) {f : ℝ → (Fin n → ℝ) → (Fin n → ℝ)} {y : ℝ → Fin n → ℝ} {t₀ b L B R Y : ℝ}
    (hL : 0 ≤ L) (hB : 0 ≤ B) (hR : 0 < R) (hY : 0 ≤ Y) (hf : Near f y t₀ b L B R) (hy : ∀ t ∈ Icc t₀ b, ‖y t‖ ≤ Y) (N : Nat) :
    ∃ c, 0 ≤ c ∧ ∃ δ > 0, ∀ {r : ℝ → ℝ} {u : ℝ}, Rounds r u → u ≤ δ → ∀ η, 0 ≤ η → η ≤ δ → ∀ g : Rd r → Vec r n → Vec r n,
      Evaluates g f y t₀ b R η → ∀ (h t : Rd r) (x : Vec r n), 0 ≤ h.val → h.val ≤ δ → t.val ∈ Icc t₀ b →
      ‖x.val - y t.val‖ ≤ δ → c * (u + η) ≤ 1 ∧
      List.Forall₂ (fun k K => ‖k.val - K‖ ≤ c * (u + η) ∧ ‖K‖ ≤ B) (stageList (round r co) g x t h N)
        (stageList co f x.val t.val h.val N) := by
  induction N with
  | zero =>
    refine ⟨0, le_refl 0, 1, one_pos, ?_⟩
    intro r u _ _ η _ _ g _ h t x _ _ _ _
    exact ⟨by simp, .nil⟩
  | succ N ih =>
    obtain ⟨c₀, hc₀, δ₀, hδ₀, key⟩ := ih
    obtain ⟨A, hA, near⟩ := accum_near (F := Fin n → ℝ) (co.a.drop (N * (N - 1) / 2))
    obtain ⟨ca, hca, err⟩ := accum_err (n := n) (co.a.drop (N * (N - 1) / 2)) (Y + 1) B (by positivity) hB
    set cN := co.c.getD (N - 1) 0 with hcN
    set Tm := max |t₀| |b| with hTm
    have hTm0 : 0 ≤ Tm := le_max_of_le_left (abs_nonneg _)
    set D := ca * (1 + c₀) + Tm + 7 * |cN| with hD
    have hD0 : 0 ≤ D := by positivity
    set c := c₀ + 1 + L * D with hc
    have hc0 : 0 ≤ c := by positivity
    have hcd : c₀ ≤ c := by
      have := mul_nonneg hL hD0
      linarith
    refine ⟨c, hc0, min (min (min δ₀ (1 / 2)) (min (R / 4) (R / (4 * (A * B + 1)))))
      (min (min (R / (2 * (|cN| + 1))) (R / (4 * (D + 1)))) (1 / (2 * (c + 1)))), by positivity, ?_⟩
    intro r u hr hu η hη hηd g hg h t x hh hhd ht hx
    have m1 : ∀ {v : ℝ}, v ≤ min (min (min δ₀ (1 / 2)) (min (R / 4) (R / (4 * (A * B + 1)))))
        (min (min (R / (2 * (|cN| + 1))) (R / (4 * (D + 1)))) (1 / (2 * (c + 1)))) → v ≤ δ₀ ∧ v ≤ 1 / 2 ∧ v ≤ R / 4 ∧
        v ≤ R / (4 * (A * B + 1)) ∧ v ≤ R / (2 * (|cN| + 1)) ∧ v ≤ R / (4 * (D + 1)) ∧ v ≤ 1 / (2 * (c + 1)) := by
      intro v hv
      simp only [le_min_iff] at hv
      tauto
    obtain ⟨u1, u2, -, -, -, u6, u7⟩ := m1 hu
    obtain ⟨e1, e2, -, -, -, e6, e7⟩ := m1 hηd
    obtain ⟨h1, h2, -, h4, h5, -, -⟩ := m1 hhd
    obtain ⟨x1, x2, x3, -, -, -, -⟩ := m1 hx
    have hu0 := hr.nonneg
    have hu1 : u < 1 := by linarith
    have hq0 : 0 ≤ u + η := by linarith
    have hone : c * (u + η) ≤ 1 := by
      have a1 : u + η ≤ 1 / (c + 1) := by
        have e : 1 / (2 * (c + 1)) + 1 / (2 * (c + 1)) = 1 / (c + 1) := by field_simp; norm_num
        linarith
      calc c * (u + η) ≤ c * (1 / (c + 1)) := mul_le_mul_of_nonneg_left a1 hc0
        _ ≤ 1 := by
          rw [mul_one_div, div_le_one (by linarith)]
          linarith
    obtain ⟨k0, k1⟩ := key hr u1 η hη e1 g hg h t x hh h1 ht x1
    refine ⟨hone, ?_⟩
    have hmono : c₀ * (u + η) ≤ c * (u + η) := mul_le_mul_of_nonneg_right hcd hq0
    unfold stageList
    refine List.rel_append (k1.imp (fun k K hk => ⟨hk.1.trans hmono, hk.2⟩)) (.cons ?_ .nil)
    split
    · -- the first stage
      have hin : ‖(t.val, x.val) - (t.val, y t.val)‖ ≤ R := by
        rw [Prod.mk_sub_mk, sub_self, Prod.norm_mk, norm_zero]
        exact max_le hR.le (by linarith)
      refine ⟨?_, (hf t.val ht _ _ hin hin).2⟩
      have a1 := hg t x t.val ht (by simpa using hR.le) (by linarith)
      have a2 : 1 * (u + η) ≤ c * (u + η) := mul_le_mul_of_nonneg_right (by have := mul_nonneg hL hD0; linarith) hq0
      linarith
    · -- the others
      have ea : (round r co).a.drop (N * (N - 1) / 2) = (co.a.drop (N * (N - 1) / 2)).map (Rd.lit r) := by
        unfold round
        rw [List.map_drop]
      have ec : (round r co).c.getD (N - 1) 0 = Rd.lit r cN := lit_getD hr hu1 co.c (N - 1)
      rw [ea, ec]
      have hxY : ‖x.val‖ ≤ Y + 1 := by
        have a1 := norm_sub_norm_le x.val (y t.val)
        have a2 := hy t.val ht
        linarith
      have hbuf := err hr hu1 h hh (by linarith) (c₀ * (u + η)) (by positivity) k0 _ _ k1 x x.val 0 hxY (by simp)
      have hnear := near h.val B hh hB (stageList co f x.val t.val h.val N) x.val (by
        intro K hK
        obtain ⟨i, hi, rfl⟩ := List.getElem_of_mem hK
        have hl := k1.length_eq
        exact ((List.forall₂_iff_get.1 k1).2 i (by omega) hi).2)
      generalize accum h ((co.a.drop (N * (N - 1) / 2)).map (Rd.lit r)) (stageList (round r co) g x t h N) x = buf at hbuf ⊢
      generalize accum h.val (co.a.drop (N * (N - 1) / 2)) (stageList co f x.val t.val h.val N) x.val = w at hbuf hnear ⊢
      have htime := time_err hr hu1.le t.val h.val cN
      have hT : (t + h * Rd.lit r cN).val = r (t.val + r (h.val * r cN)) := rfl
      rw [← hT] at htime
      generalize t + h * Rd.lit r cN = t' at htime ⊢
      -- distances
      have habst : |t.val| ≤ Tm := by
        rw [hTm]
        exact abs_le_max_abs_abs ht.1 ht.2
      have hhc : |h.val * cN| ≤ |cN| := by
        rw [abs_mul, abs_of_nonneg hh]
        exact mul_le_of_le_one_left (abs_nonneg _) (by linarith)
      have d1 : |t'.val - (t.val + h.val * cN)| ≤ D * (u + η) := by
        have a1 := mul_le_mul_of_nonneg_left habst hu0
        have a2 := mul_le_mul_of_nonneg_left hhc hu0
        have a3 : 0 ≤ ca * (1 + c₀) * (u + η) := by positivity
        have a4 : 0 ≤ (Tm + 7 * |cN|) * η := by positivity
        have e : D * (u + η) = ca * (1 + c₀) * (u + η) + (u * Tm + 7 * (u * |cN|)) + (Tm + 7 * |cN|) * η := by rw [hD]; ring
        rw [e]
        linarith
      have d2 : ‖buf.val - w‖ ≤ D * (u + η) := by
        refine hbuf.trans ?_
        have a1 : h.val * (c₀ * (u + η)) ≤ c₀ * (u + η) := mul_le_of_le_one_left (by positivity) (by linarith)
        have a2 : 0 + u + h.val * (c₀ * (u + η)) ≤ (1 + c₀) * (u + η) := by linarith
        have a3 := mul_le_mul_of_nonneg_left a2 hca
        have a4 : 0 ≤ (Tm + 7 * |cN|) * (u + η) := by positivity
        have e : D * (u + η) = ca * ((1 + c₀) * (u + η)) + (Tm + 7 * |cN|) * (u + η) := by rw [hD]; ring
        rw [e]
        linarith
      have d3 : D * (u + η) ≤ R / 2 := by
        have e : R / (4 * (D + 1)) + R / (4 * (D + 1)) = R / (2 * (D + 1)) := by field_simp; norm_num
        have a1 : u + η ≤ R / (2 * (D + 1)) := by linarith
        calc D * (u + η) ≤ D * (R / (2 * (D + 1))) := mul_le_mul_of_nonneg_left a1 hD0
          _ = R / 2 * (D / (D + 1)) := by field_simp
          _ ≤ R / 2 * 1 := by
            refine mul_le_mul_of_nonneg_left ?_ (by linarith)
            rw [div_le_one (by linarith)]
            linarith
          _ = R / 2 := mul_one _
      have d4 : |h.val * cN| ≤ R / 2 := by
        rw [abs_mul, abs_of_nonneg hh]
        calc h.val * |cN| ≤ R / (2 * (|cN| + 1)) * |cN| := mul_le_mul_of_nonneg_right h5 (abs_nonneg _)
          _ = R / 2 * (|cN| / (|cN| + 1)) := by field_simp
          _ ≤ R / 2 * 1 := by
            refine mul_le_mul_of_nonneg_left ?_ (by linarith)
            rw [div_le_one (by positivity)]
            linarith
          _ = R / 2 := mul_one _
      have d5 : h.val * A * B ≤ R / 4 := by
        calc h.val * A * B = h.val * (A * B) := by ring
          _ ≤ R / (4 * (A * B + 1)) * (A * B) := mul_le_mul_of_nonneg_right h4 (by positivity)
          _ = R / 4 * (A * B / (A * B + 1)) := by field_simp
          _ ≤ R / 4 * 1 := by
            refine mul_le_mul_of_nonneg_left ?_ (by linarith)
            rw [div_le_one (by positivity)]
            linarith
          _ = R / 4 := mul_one _
      have d6 : ‖w - y t.val‖ ≤ R / 2 := by
        have := norm_sub_le_norm_sub_add_norm_sub w x.val (y t.val)
        linarith
      have d7 : ‖buf.val - y t.val‖ ≤ R := by
        have := norm_sub_le_norm_sub_add_norm_sub buf.val w (y t.val)
        linarith
      have d8 : |t'.val - t.val| ≤ R := by
        have e : t'.val - t.val = (t'.val - (t.val + h.val * cN)) + h.val * cN := by ring
        rw [e]
        have := abs_add_le (t'.val - (t.val + h.val * cN)) (h.val * cN)
        linarith
      have in1 : ‖(t'.val, buf.val) - (t.val, y t.val)‖ ≤ R := by
        rw [Prod.mk_sub_mk, Prod.norm_mk]
        exact max_le d8 d7
      have in2 : ‖(t.val + h.val * cN, w) - (t.val, y t.val)‖ ≤ R := by
        rw [Prod.mk_sub_mk, Prod.norm_mk, add_sub_cancel_left]
        exact max_le (by rw [Real.norm_eq_abs]; linarith) (by linarith)
      have f1 := (hf t.val ht _ _ in1 in2).1
      have f2 : ‖(t'.val, buf.val) - (t.val + h.val * cN, w)‖ ≤ D * (u + η) := by
        rw [Prod.mk_sub_mk, Prod.norm_mk]
        exact max_le d1 d2
      have f3 := hg t' buf t.val ht d8 d7
      refine ⟨?_, (hf t.val ht _ _ in2 in2).2⟩
      have f4 := norm_sub_le_norm_sub_add_norm_sub (g t' buf).val (f t'.val buf.val) (f (t.val + h.val * cN) w)
      have f5 := mul_le_mul_of_nonneg_left f2 hL
      have f6 : 0 ≤ c₀ * (u + η) := by positivity
      simp only at f1
      have e : c * (u + η) = c₀ * (u + η) + (u + η) + L * (D * (u + η)) := by rw [hc]; ring
      rw [e]
      linarith

/-- The rounding error of one step: a constant times the unit roundoff and the step times the error of the right-hand side. -/
theorem step_err (co : Coefficients ℝ) {f : ℝ → (Fin n → ℝ) → (Fin n → ℝ)} {y : ℝ → Fin n → ℝ} {t₀ b L B R Y : ℝ}
    (hL : 0 ≤ L) (hB : 0 ≤ B) (hR : 0 < R) (hY : 0 ≤ Y) (hf : Near f y t₀ b L B R) (hy : ∀ t ∈ Icc t₀ b, ‖y t‖ ≤ Y) :
    ∃ c, 0 ≤ c ∧ ∃ δ > 0, ∀ {r : ℝ → ℝ} {u : ℝ}, Rounds r u → u ≤ δ → ∀ η, 0 ≤ η → η ≤ δ → ∀ g : Rd r → Vec r n → Vec r n,
      Evaluates g f y t₀ b R η → ∀ (h t : Rd r) (x : Vec r n), 0 ≤ h.val → h.val ≤ δ → t.val ∈ Icc t₀ b →
      ‖x.val - y t.val‖ ≤ δ →
      ‖(opStep (round r co) g t h x).val - opStep co f t.val h.val x.val‖ ≤ c * (u + h.val * η) := by
  obtain ⟨c₀, hc₀, δ, hδ, key⟩ := stages_err co hL hB hR hY hf hy (co.c.length + 1)
  obtain ⟨cb, hcb, err⟩ := accum_err (n := n) co.b (Y + 1) B (by positivity) hB
  refine ⟨cb * (1 + c₀), by positivity, min δ (1 / 2), by positivity, ?_⟩
  intro r u hr hu η hη hηd g hg h t x hh hhd ht hx
  have m1 : ∀ {v : ℝ}, v ≤ min δ (1 / 2) → v ≤ δ ∧ v ≤ 1 / 2 := fun hv => le_min_iff.1 hv
  obtain ⟨u1, u2⟩ := m1 hu
  obtain ⟨e1, e2⟩ := m1 hηd
  obtain ⟨h1, h2⟩ := m1 hhd
  obtain ⟨x1, x2⟩ := m1 hx
  have hu0 := hr.nonneg
  obtain ⟨k0, k1⟩ := key hr u1 η hη e1 g hg h t x hh h1 ht x1
  have hxY : ‖x.val‖ ≤ Y + 1 := by
    have a1 := norm_sub_norm_le x.val (y t.val)
    have a2 := hy t.val ht
    linarith
  have hl : (round r co).c.length = co.c.length := by simp [round]
  have := err hr (by linarith) h hh (by linarith) (c₀ * (u + η)) (by positivity) k0 _ _ k1 x x.val 0 hxY (by simp)
  unfold opStep
  rw [hl]
  refine this.trans ?_
  have a1 : h.val * u ≤ u := mul_le_of_le_one_left hu0 (by linarith)
  have a2 : 0 + u + h.val * (c₀ * (u + η)) ≤ (1 + c₀) * (u + h.val * η) := by
    have b1 := mul_le_mul_of_nonneg_left a1 hc₀
    have b2 : 0 ≤ h.val * η := by positivity
    nlinarith
  have := mul_le_mul_of_nonneg_left a2 hcb
  linarith

end

end Verif.Round
