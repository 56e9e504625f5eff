import Verif.Event.Ops
import Verif.Round.Grid

/-! # C137: events in rounded arithmetic -/

set_option linter.unusedSectionVars false

namespace Verif.Round

open Verif.Res Verif.RK Verif.Event

section
variable {K Q : Type} [Field K] [LinearOrder K] [IsStrictOrderedRing K] {ρ : K → K} {u : K}

/-- Values of `real_type` are those which rounding does not change. -/
def Value (a : Rd ρ) : Prop := ρ a.val = a.val

theorem value_zero (hG : Grid ρ u) : Value (0 : Rd ρ) := hG.zero

/-- The crossing parameter as computed -/
theorem theta (hG : Grid ρ u) (hu : u ≤ 1 / 4) {a b : Rd ρ} (ha : Value a) (hopp : (0 ≤ a ∧ b ≤ 0) ∨ (a ≤ 0 ∧ 0 ≤ b))
    (hne : a - b ≠ 0) :
    0 ≤ (tau a b).val ∧ (tau a b).val ≤ 1 ∧ Value (tau a b) ∧ 0 ≤ a.val / (a.val - b.val) ∧ a.val / (a.val - b.val) ≤ 1 ∧
      |(tau a b).val - a.val / (a.val - b.val)| ≤ 3 * u * (a.val / (a.val - b.val)) ∧
      (1 ≤ tau a b → |b.val| ≤ 3 * u * |a.val|) := by
  obtain ⟨a⟩ := a
  obtain ⟨b⟩ := b
  have hopp : (0 ≤ a ∧ b ≤ 0) ∨ (a ≤ 0 ∧ 0 ≤ b) := hopp
  have ha : ρ a = a := ha
  have hne : ρ (a - b) ≠ 0 := fun h => hne (Rd.ext' h)
  have hu0 := hG.nonneg
  have e0 : (tau (⟨a⟩ : Rd ρ) ⟨b⟩).val = ρ (a / ρ (a - b)) := rfl
  have e1 : (1 ≤ tau (⟨a⟩ : Rd ρ) ⟨b⟩) ↔ 1 ≤ ρ (a / ρ (a - b)) := Iff.rfl
  rw [e0, e1]
  simp only
  have hD : a - b ≠ 0 := fun h => hne (by rw [h, hG.zero])
  have hq : 0 ≤ a / ρ (a - b) ∧ a / ρ (a - b) ≤ 1 := by
    rcases hopp with ⟨h1, h2⟩ | ⟨h1, h2⟩
    · have h3 : a ≤ ρ (a - b) := by
        have := hG.mono (show a ≤ a - b by linarith)
        rwa [ha] at this
      have h4 : 0 < ρ (a - b) := lt_of_le_of_ne (h1.trans h3) (Ne.symm hne)
      exact ⟨div_nonneg h1 h4.le, (div_le_one h4).2 h3⟩
    · have h3 : ρ (a - b) ≤ a := by
        have := hG.mono (show a - b ≤ a by linarith)
        rwa [ha] at this
      have h4 : ρ (a - b) < 0 := lt_of_le_of_ne (h3.trans h1) hne
      exact ⟨div_nonneg_of_nonpos h1 h4.le, (div_le_one_of_neg h4).2 h3⟩
  have hT := tau_mem hopp hD
  unfold tau at hT
  obtain ⟨hT0, hT1, -, -⟩ := hT
  set T := a / (a - b) with hTd
  have herr : |ρ (a / ρ (a - b)) - T| ≤ 3 * u * T := by
    obtain ⟨δ, hδ, hd⟩ : ∃ δ, |δ| ≤ u ∧ ρ (a - b) = (a - b) * (1 + δ) := by
      refine ⟨(ρ (a - b) - (a - b)) / (a - b), ?_, ?_⟩
      · rw [abs_div, div_le_iff₀ (abs_pos.2 hD)]
        exact hG.le _
      · field_simp
        ring
    obtain ⟨d1, d2⟩ := abs_le.1 hδ
    have h1 : 0 < 1 + δ := by linarith
    have e : a / ρ (a - b) = T / (1 + δ) := by
      rw [hd, hTd, div_div]
    rw [e]
    have h2 := abs_le.1 (hG.le (T / (1 + δ)))
    have hp : 0 ≤ T / (1 + δ) := div_nonneg hT0 h1.le
    rw [abs_of_nonneg hp] at h2
    set P := T / (1 + δ) with hP
    have hPT : T = P * (1 + δ) := by
      rw [hP]
      field_simp
    have h3 : |P * δ| ≤ P * u := by
      rw [abs_mul, abs_of_nonneg hp]
      exact mul_le_mul_of_nonneg_left hδ hp
    obtain ⟨f1, f2⟩ := abs_le.1 h3
    have h4 : 2 * (u * P) ≤ 3 * u * T := by
      have : 3 / 4 * P ≤ T := by rw [hPT]; nlinarith
      have := mul_le_mul_of_nonneg_left this (show 0 ≤ 8 / 3 * u by linarith)
      have hTu : 0 ≤ u * T := mul_nonneg hu0 hT0
      linarith
    rw [abs_le]
    constructor <;> nlinarith
  refine ⟨?_, ?_, hG.idem _, hT0, hT1, herr, fun h1 => ?_⟩
  · have := hG.mono hq.1
    rwa [hG.zero] at this
  · have := hG.mono hq.2
    rwa [hG.one] at this
  · have h2 := (abs_le.1 herr).2
    have h3 : 1 ≤ (1 + 3 * u) * T := by linarith
    have h4 : |a - b| = |a| + |b| := by
      rcases hopp with ⟨h1, h2⟩ | ⟨h1, h2⟩
      · rw [abs_of_nonneg h1, abs_of_nonpos h2, abs_of_nonneg (by linarith)]
        ring
      · rw [abs_of_nonpos h1, abs_of_nonneg h2, abs_of_nonpos (by linarith)]
        ring
    have h5 : T = |a| / |a - b| := by
      rw [← abs_div, ← hTd, abs_of_nonneg hT0]
    rw [h5, ← mul_div_assoc, le_div_iff₀ (abs_pos.2 hD), h4] at h3
    linarith

/-- The state at the event as computed -/
theorem blend (hG : Grid ρ u) (hu : u ≤ 1 / 4) {θ T x y : K} (h0 : 0 ≤ θ) (h1 : θ ≤ 1) (hT : T ≤ 1)
    (hθ : |θ - T| ≤ 3 * u * T) :
    |ρ (ρ (θ * y) + ρ (ρ (1 - θ) * x)) - (T * y + (1 - T) * x)| ≤ 7 * u * (|x| + |y|) := by
  have hu0 := hG.nonneg
  have hx := abs_nonneg x
  have hy := abs_nonneg y
  have a1 : |ρ (θ * y) - θ * y| ≤ u * |y| := by
    refine (hG.le _).trans (mul_le_mul_of_nonneg_left ?_ hu0)
    rw [abs_mul, abs_of_nonneg h0]
    nlinarith
  have a2 : |ρ (1 - θ) - (1 - θ)| ≤ u := by
    refine (hG.le _).trans ?_
    rw [abs_of_nonneg (by linarith)]
    nlinarith
  have a3 : |ρ (1 - θ) * x - (1 - θ) * x| ≤ u * |x| := by
    rw [← sub_mul, abs_mul]
    exact mul_le_mul_of_nonneg_right a2 hx
  have a4 : |(1 - θ) * x| ≤ |x| := by
    rw [abs_mul, abs_of_nonneg (by linarith)]
    nlinarith
  have a5 : |ρ (1 - θ) * x| ≤ (1 + u) * |x| := by
    have := abs_sub_abs_le_abs_sub (ρ (1 - θ) * x) ((1 - θ) * x)
    linarith
  have a6 : |ρ (ρ (1 - θ) * x) - ρ (1 - θ) * x| ≤ u * ((1 + u) * |x|) :=
    (hG.le _).trans (mul_le_mul_of_nonneg_left a5 hu0)
  set A := ρ (θ * y) with hA
  set B := ρ (ρ (1 - θ) * x) with hB
  have b1 : |A - θ * y| ≤ u * |y| := a1
  have b2 : |B - (1 - θ) * x| ≤ (2 * u + u * u) * |x| := by
    have e : B - (1 - θ) * x = (B - ρ (1 - θ) * x) + (ρ (1 - θ) * x - (1 - θ) * x) := by ring
    rw [e]
    refine (abs_add_le _ _).trans ?_
    nlinarith
  have b3 : |θ * y + (1 - θ) * x| ≤ |x| + |y| := by
    refine (abs_add_le _ _).trans ?_
    have : |θ * y| ≤ |y| := by
      rw [abs_mul, abs_of_nonneg h0]
      nlinarith
    linarith
  have b4 : |A + B - (θ * y + (1 - θ) * x)| ≤ (2 * u + u * u) * (|x| + |y|) := by
    have e : A + B - (θ * y + (1 - θ) * x) = (A - θ * y) + (B - (1 - θ) * x) := by ring
    rw [e]
    refine (abs_add_le _ _).trans ?_
    nlinarith [mul_nonneg hu0 hy, mul_nonneg (mul_nonneg hu0 hu0) hy]
  set S := |x| + |y| with hS
  have hS0 : 0 ≤ S := by positivity
  have b5 : |A + B| ≤ (1 + (2 * u + u * u)) * S := by
    have := abs_sub_abs_le_abs_sub (A + B) (θ * y + (1 - θ) * x)
    linarith
  have b6 : |ρ (A + B) - (A + B)| ≤ u * ((1 + (2 * u + u * u)) * S) :=
    (hG.le _).trans (mul_le_mul_of_nonneg_left b5 hu0)
  have b7 : |(θ * y + (1 - θ) * x) - (T * y + (1 - T) * x)| ≤ 3 * u * S := by
    have e : (θ * y + (1 - θ) * x) - (T * y + (1 - T) * x) = (θ - T) * (y - x) := by ring
    rw [e, abs_mul]
    have c1 : |y - x| ≤ S := by
      have := abs_sub y x
      linarith
    have c2 : |θ - T| ≤ 3 * u := hθ.trans (by nlinarith)
    exact mul_le_mul c2 c1 (abs_nonneg _) (by linarith)
  have e : ρ (A + B) - (T * y + (1 - T) * x) = (ρ (A + B) - (A + B)) + (A + B - (θ * y + (1 - θ) * x)) +
      ((θ * y + (1 - θ) * x) - (T * y + (1 - T) * x)) := by ring
  rw [e]
  refine (abs_add_three _ _ _).trans ?_
  have c : u * ((1 + (2 * u + u * u)) * S) + (2 * u + u * u) * S + 3 * u * S = (6 * u + u * u * (3 + u)) * S := by ring
  have d : u * u * (3 + u) ≤ u := by nlinarith [mul_nonneg hu0 hu0]
  have := mul_le_mul_of_nonneg_right d hS0
  linarith

/-- The time of the event as computed -/
theorem clockErr (hG : Grid ρ u) (hu : u ≤ 1 / 4) {a b θ T : K} (ha : ρ a = a) (hb : ρ b = b) (hab : a ≤ b) (h2 : ρ θ = θ)
    (h0 : 0 ≤ θ) (hlt : θ < 1) (hT0 : 0 ≤ T) (hθ : |θ - T| ≤ 3 * u * T) :
    |ρ (a + ρ (ρ (b - a) * θ)) - (a + (b - a) * T)| ≤ 7 * u * ((b - a) * T) + u * max |a| |b| := by
  have hu0 := hG.nonneg
  obtain ⟨-, -, c1, c2⟩ := hG.between ha hb hab h2 h0 hlt
  set d := b - a with hd
  have hd0 : 0 ≤ d := by rw [hd]; linarith
  set y := ρ (ρ d * θ) with hy
  have a1 := hG.le d
  rw [abs_of_nonneg hd0] at a1
  have a2 := hG.le (ρ d * θ)
  obtain ⟨f1, f2⟩ := abs_le.1 a1
  have hρd : 0 ≤ ρ d := by nlinarith
  rw [abs_of_nonneg (mul_nonneg hρd h0)] at a2
  obtain ⟨g1, g2⟩ := abs_le.1 a2
  obtain ⟨k1, k2⟩ := abs_le.1 hθ
  have up : ρ d * θ ≤ (1 + u) * d * ((1 + 3 * u) * T) :=
    mul_le_mul (by linarith) (by linarith) h0 (by nlinarith)
  have low : (1 - u) * d * ((1 - 3 * u) * T) ≤ ρ d * θ :=
    mul_le_mul (by linarith) (by linarith) (by nlinarith) hρd
  have hdT : 0 ≤ d * T := mul_nonneg hd0 hT0
  have y1 : y ≤ d * T + 7 * u * (d * T) := by
    have e : (1 + u) * ((1 + u) * d * ((1 + 3 * u) * T)) = (1 + (5 * u + u * u * (7 + 3 * u))) * (d * T) := by ring
    have h3 : y ≤ (1 + u) * (ρ d * θ) := by linarith
    have h4 := mul_le_mul_of_nonneg_left up (show 0 ≤ 1 + u by linarith)
    rw [e] at h4
    have h5 : u * u * (7 + 3 * u) ≤ 2 * u := by nlinarith [mul_nonneg hu0 hu0]
    have h6 := mul_le_mul_of_nonneg_right h5 hdT
    linarith
  have y2 : d * T - 7 * u * (d * T) ≤ y := by
    have e : (1 - u) * ((1 - u) * d * ((1 - 3 * u) * T)) = (1 - 5 * u + u * u * (7 - 3 * u)) * (d * T) := by ring
    have h3 : (1 - u) * (ρ d * θ) ≤ y := by linarith
    have h4 := mul_le_mul_of_nonneg_left low (show 0 ≤ 1 - u by linarith)
    rw [e] at h4
    have h5 : 0 ≤ u * u * (7 - 3 * u) := mul_nonneg (mul_nonneg hu0 hu0) (by linarith)
    have h6 := mul_nonneg h5 hdT
    have h7 := mul_nonneg hu0 hdT
    linarith
  have a3 := hG.le (a + y)
  have a4 : |a + y| ≤ max |a| |b| := abs_le_max_abs_abs c1 c2
  have a5 := mul_le_mul_of_nonneg_left a4 hu0
  obtain ⟨m1, m2⟩ := abs_le.1 a3
  rw [abs_le]
  constructor <;> linarith

theorem value_getD (hG : Grid ρ u) {l : List (Rd ρ)} (h : ∀ z ∈ l, Value z) (i : Nat) : Value (l.getD i 0) := by
  rw [List.getD_eq_getElem?_getD]
  cases hi : l[i]? with
  | none => exact value_zero hG
  | some z => exact h z (List.mem_of_getElem? hi)

/-- C137. One step in rounded arithmetic, from functions that are on their sides. Either no function crosses, and the step is returned
as it is; or the step is cut for one of the crossing functions, at a time inside the step, and the crossing parameter, the time and the
state differ by rounding errors only from those of exact arithmetic, as far as the values at the ends of the step determine them; or the
code throws because the functions that cross are zero up to rounding at the end of the step; or such a function is zero at both ends.
Missing: a function that is not zero at the end of the step may make the code throw (see `C137_tiny_false`), and after an event the
functions need not be on their sides any more (see `C137_back_false`). -/
theorem C137_partial (hG : Grid ρ u) (hu : u ≤ 1 / 4) {m : Nat} (r : EvRhs (Rd ρ) (Vec ρ m) Q) (n : Nat)
    (hlen : ∀ q t x, (r.zeroFunctions q t x).length = n)
    (q : Q) (e : Ctl (Rd ρ)) (he : Armed e n) (he1 : ∀ z ∈ e.zf1, Value z) (x1 x2 : Vec ρ m) (t2 : Rd ρ) (ht1 : Value e.t1)
    (ht2 : Value t2) (hle : e.t1 ≤ t2) :
    let z1 := fun i => (e.zf1.getD i 0).val
    let z2 := fun i => ((r.zeroFunctions q t2 x2).getD i 0).val
    let X := fun i => i < n ∧ Crosses (e.flags.getD i 0) (e.state.getD i 0) ((r.zeroFunctions q t2 x2).getD i 0)
    let T := fun i => z1 i / (z1 i - z2 i)
    ((∀ i, ¬ X i) ∧ ∃ e', e.atStepEnd r q x1 x2 t2 = .ok ((e', q), x2, t2, Trunc.none) ∧ Armed e' n ∧
      e'.zf1 = r.zeroFunctions q t2 x2) ∨
    ((∃ i, X i ∧ z1 i = 0 ∧ z2 i = 0) ∧ e.atStepEnd r q x1 x2 t2 = .error .divZero) ∨
    ((∃ i, X i) ∧ (∀ i, X i → |z2 i| ≤ 3 * u * |z1 i|) ∧ e.atStepEnd r q x1 x2 t2 = .error (.exc "out_of_range")) ∨
    ∃ i e' t' x', X i ∧ (∀ j, X j → (1 - 3 * u) * T i ≤ (1 + 3 * u) * T j) ∧ 0 ≤ T i ∧ T i ≤ 1 ∧
      e.t1 ≤ t' ∧ t' ≤ t2 ∧ Value t' ∧
      |t'.val - (e.t1.val + (t2.val - e.t1.val) * T i)| ≤
        7 * u * ((t2.val - e.t1.val) * T i) + u * max |e.t1.val| |t2.val| ∧
      (∀ k, |(x' k).val - (T i * (x2 k).val + (1 - T i) * (x1 k).val)| ≤ 7 * u * (|(x1 k).val| + |(x2 k).val|)) ∧
      let res := r.switchPhaseState q ((List.replicate n 0).set i (sgn ((r.zeroFunctions q t2 x2).getD i 0))) t' x'
      e.atStepEnd r q x1 x2 t2 = .ok ((e', res.1), res.2, t', ⟨true, some i, sgn ((r.zeroFunctions q t2 x2).getD i 0)⟩) ∧
      Sized e' n := by
  intro z1 z2 X T
  have hopp : ∀ i, X i → (0 ≤ e.zf1.getD i 0 ∧ (r.zeroFunctions q t2 x2).getD i 0 ≤ 0) ∨
      (e.zf1.getD i 0 ≤ 0 ∧ 0 ≤ (r.zeroFunctions q t2 x2).getD i 0) := fun i hi =>
    (he.side i hi.1).cross ((xz_iff _ _ _).2 hi.2)
  have hth : ∀ i, X i → e.zf1.getD i 0 - (r.zeroFunctions q t2 x2).getD i 0 ≠ 0 → _ := fun i hi hne =>
    theta hG hu (value_getD hG he1 i) (hopp i hi) hne
  rcases atStepEnd_ops r n hlen q e he.sized x1 x2 t2 with ⟨h1, e', h2, h3, h4, h5, h6⟩ | ⟨⟨i, hi, hz⟩, h2⟩ | ⟨hex, hall, h2⟩ |
    ⟨i, e', hi, hlt, hall, h2, h3, h4, -⟩
  · left
    refine ⟨h1, e', h2, ⟨h3.clean, h3.haveZf, h3.pos, h3.zf1, h3.flags, h3.state, h3.haveRec, fun i hi => ?_⟩, h4⟩
    rw [h4, h5, h6]
    refine (he.side i hi).stay ?_
    rw [Bool.eq_false_iff]
    exact fun hc => h1 i ⟨hi, (xz_iff _ _ _).1 hc⟩
  · right; left
    refine ⟨⟨i, hi, ?_⟩, h2⟩
    have h0 : ρ (z1 i - z2 i) = 0 := congrArg Rd.val hz
    have h3 := hG.le (z1 i - z2 i)
    rw [h0, zero_sub, abs_neg] at h3
    have h4 : z1 i - z2 i = 0 := by
      by_contra hne
      have := abs_pos.2 hne
      nlinarith
    rcases hopp i hi with ⟨a, b⟩ | ⟨a, b⟩
    · have a : 0 ≤ z1 i := a
      have b : z2 i ≤ 0 := b
      constructor <;> linarith
    · have a : z1 i ≤ 0 := a
      have b : 0 ≤ z2 i := b
      constructor <;> linarith
  · right; right; left
    exact ⟨hex, fun i hi => (hth i hi (hall i hi).1).2.2.2.2.2.2 (hall i hi).2, h2⟩
  · right; right; right
    obtain ⟨a1, a2, a3, a4, a5, a6, -⟩ := hth i hi (hall i hi).1
    have hlt' : (tau (e.zf1.getD i 0) ((r.zeroFunctions q t2 x2).getD i 0)).val < 1 := hlt
    refine ⟨i, e', _, _, hi, fun j hj => ?_, a4, a5, ?_, ?_, ?_, ?_, ?_, h2, h3⟩
    · obtain ⟨b1, b2, b3, b4, b5, b6, -⟩ := hth j hj (hall j hj).1
      have h5 : (tau (e.zf1.getD i 0) ((r.zeroFunctions q t2 x2).getD i 0)).val ≤
        (tau (e.zf1.getD j 0) ((r.zeroFunctions q t2 x2).getD j 0)).val := (hall j hj).2
      have h6 := (abs_le.1 a6).1
      have h7 := (abs_le.1 b6).2
      show (1 - 3 * u) * (z1 i / (z1 i - z2 i)) ≤ (1 + 3 * u) * (z1 j / (z1 j - z2 j))
      linarith
    · exact (hG.between ht1 ht2 hle a3 a1 hlt').1
    · exact (hG.between ht1 ht2 hle a3 a1 hlt').2.1
    · exact hG.idem _
    · exact clockErr hG hu ht1 ht2 hle a3 a1 hlt' a4 a6
    · exact fun k => blend hG hu a1 a2 a5 a6

/-- C137. If one of the functions that cross is not zero up to rounding at the end of the step, and none of them is zero at both ends,
then the event is found. -/
theorem C137_found (hG : Grid ρ u) (hu : u ≤ 1 / 4) {m : Nat} (r : EvRhs (Rd ρ) (Vec ρ m) Q) (n : Nat)
    (hlen : ∀ q t x, (r.zeroFunctions q t x).length = n)
    (q : Q) (e : Ctl (Rd ρ)) (he : Armed e n) (he1 : ∀ z ∈ e.zf1, Value z) (x1 x2 : Vec ρ m) (t2 : Rd ρ) (ht1 : Value e.t1)
    (ht2 : Value t2) (hle : e.t1 ≤ t2) (i : Nat) (hi : i < n)
    (hx : Crosses (e.flags.getD i 0) (e.state.getD i 0) ((r.zeroFunctions q t2 x2).getD i 0))
    (hbig : 3 * u * |(e.zf1.getD i 0).val| < |((r.zeroFunctions q t2 x2).getD i 0).val|)
    (hnz : ∀ j, j < n → Crosses (e.flags.getD j 0) (e.state.getD j 0) ((r.zeroFunctions q t2 x2).getD j 0) →
      (e.zf1.getD j 0).val ≠ 0 ∨ ((r.zeroFunctions q t2 x2).getD j 0).val ≠ 0) :
    ∃ e' q' y t' j c, e.atStepEnd r q x1 x2 t2 = .ok ((e', q'), y, t', ⟨true, some j, c⟩) ∧ e.t1 ≤ t' ∧ t' ≤ t2 := by
  rcases C137_partial hG hu r n hlen q e he he1 x1 x2 t2 ht1 ht2 hle with ⟨h, -⟩ | ⟨⟨j, hj, h1, h2⟩, -⟩ | ⟨-, h, -⟩ |
    ⟨j, e', t', x', -, -, -, -, h1, h2, -, -, -, h3, -⟩
  · exact absurd ⟨hi, hx⟩ (h i)
  · rcases hnz j hj.1 hj.2 with h | h
    · exact absurd h1 h
    · exact absurd h2 h
  · exact absurd (h i ⟨hi, hx⟩) (not_le.2 hbig)
  · exact ⟨e', _, _, t', j, _, h3, h1, h2⟩

/-- The remembered sign is one that can occur with the flags. -/
def Ranged (f : Nat) (st : Int) : Prop :=
  (f &&& 3 = 1 ∧ (st = 0 ∨ st = 1)) ∨ (f &&& 3 = 2 ∧ (st = 0 ∨ st = -1)) ∨ (f &&& 3 = 3 ∧ (st = 0 ∨ st = 1 ∨ st = -1))

theorem Ranged.of_side {f : Nat} {st : Int} {z : Rd ρ} (h : Side f st z) : Ranged f st := by
  rcases h with ⟨hf, -, hs⟩ | ⟨hf, -, hs⟩ | ⟨hf, ⟨hs, -⟩ | ⟨hs, -⟩ | ⟨hs, -⟩⟩
  · exact .inl ⟨hf, hs⟩
  · exact .inr (.inl ⟨hf, hs⟩)
  · exact .inr (.inr ⟨hf, .inr (.inl hs)⟩)
  · exact .inr (.inr ⟨hf, .inr (.inr hs)⟩)
  · exact .inr (.inr ⟨hf, .inl hs⟩)

theorem sgn_range (z : Rd ρ) : sgn z = 0 ∨ sgn z = 1 ∨ sgn z = -1 := by
  unfold sgn
  split_ifs <;> simp

theorem Ranged.sFlag {f : Nat} {st : Int} (h : Ranged f st) (z : Rd ρ) : Ranged f (sFlag z f) := by
  unfold Ranged at *
  unfold Event.sFlag
  rcases h with ⟨h, -⟩ | ⟨h, -⟩ | ⟨h, -⟩
  · refine .inl ⟨h, ?_⟩
    rw [if_pos h]
    split_ifs <;> simp
  · refine .inr (.inl ⟨h, ?_⟩)
    rw [if_neg (by omega), if_pos h]
    split_ifs <;> simp
  · refine .inr (.inr ⟨h, ?_⟩)
    rw [if_neg (by omega), if_neg (by omega), if_pos h]
    exact sgn_range z

/-- A function that is not seen to cross is on its side. -/
theorem Ranged.side {f : Nat} {st : Int} (h : Ranged f st) {z : Rd ρ} (hx : ¬ Crosses f st z) : Side f st z := by
  unfold Crosses at hx
  rcases h with ⟨h, hs⟩ | ⟨h, hs⟩ | ⟨h, hs⟩
  · refine .inl ⟨h, ?_, hs⟩
    by_contra hz
    refine hx (.inl ⟨h, ?_⟩)
    rcases hs with hs | hs
    · exact .inr ⟨hs, not_le.1 hz⟩
    · exact .inl ⟨hs, (not_le.1 hz).le⟩
  · refine .inr (.inl ⟨h, ?_, hs⟩)
    by_contra hz
    refine hx (.inr (.inl ⟨h, ?_⟩))
    rcases hs with hs | hs
    · exact .inr ⟨hs, not_le.1 hz⟩
    · exact .inl ⟨hs, (not_le.1 hz).le⟩
  · refine .inr (.inr ⟨h, ?_⟩)
    by_contra hc
    refine hx (.inr (.inr ⟨h, fun hd => hc ?_⟩))
    rcases hd with ⟨h1, h2⟩ | ⟨h1, h2⟩ | ⟨h1, h2⟩
    · exact .inr (.inl ⟨h2, h1.le⟩)
    · exact .inr (.inr ⟨h2, h1⟩)
    · exact .inl ⟨h2, h1.le⟩

/-- C137. The sides are lost only until the next step which is not cut: whatever the steps before have been, after it all functions are
on their sides, and `C137_partial` can be used for the step that follows. -/
theorem C137_rearmed {m : Nat} (r : EvRhs (Rd ρ) (Vec ρ m) Q) (n : Nat)
    (hlen : ∀ q t x, (r.zeroFunctions q t x).length = n) (q : Q) (e : Ctl (Rd ρ)) (he : Sized e n)
    (hs : ∀ i, i < n → Ranged (e.flags.getD i 0) (e.state.getD i 0)) (x1 x2 y : Vec ρ m) (t2 t' : Rd ρ) (e' : Ctl (Rd ρ)) (q' : Q)
    (tr : Trunc) (h : e.atStepEnd r q x1 x2 t2 = .ok ((e', q'), y, t', tr)) :
    Sized e' n ∧ (∀ i, i < n → Ranged (e'.flags.getD i 0) (e'.state.getD i 0)) ∧ (tr.truncated = false → Armed e' n) := by
  rcases atStepEnd_ops r n hlen q e he x1 x2 t2 with ⟨h1, e1, h2, h3, h4, h5, h6⟩ | ⟨-, h2⟩ | ⟨-, -, h2⟩ |
    ⟨i, e1, hi, -, -, h2, h3, h4, h5⟩
  · rw [h] at h2
    cases h2
    have hs' : ∀ i, i < n → Ranged (e'.flags.getD i 0) (e'.state.getD i 0) := by rw [h5, h6]; exact hs
    refine ⟨h3, hs', fun _ => ⟨h3.clean, h3.haveZf, h3.pos, h3.zf1, h3.flags, h3.state, h3.haveRec, fun i hi => ?_⟩⟩
    refine (hs' i hi).side fun hc => h1 i ⟨hi, ?_⟩
    rw [h4, h5, h6] at hc
    exact hc
  · rw [h] at h2
    cases h2
  · rw [h] at h2
    cases h2
  · rw [h] at h2
    cases h2
    refine ⟨h3, fun j hj => ?_, fun ht => by cases ht⟩
    rw [h4]
    obtain ⟨a1, a2⟩ := h5 j hj
    by_cases hf : e.flags.getD j 0 &&& 4 = 0
    · rw [(a2 hf).2]
      split_ifs with h7 h8
      · exact .inr (.inr ⟨h8, sgn_range _⟩)
      · exact (hs j hj).sFlag _
      · exact hs j hj
    · rw [(a1 hf).2]
      exact (hs j hj).sFlag _

end

/-! ### `double` -/

/-- `x - c`, watched when it falls; nothing happens at its zero. -/
def fall (c : ℚ) : EvRhs (Rd (binary 53 : ℚ → ℚ)) (Vec (binary 53 : ℚ → ℚ) 1) Unit where
  zeroFuncCount _ := 1
  zeroFuncFlags _ := [1]
  zeroFunctions _ _ x := [x 0 - ⟨c⟩]
  switchPhaseState _ _ _ x := ((), x)
  truncateStep _ t x := (false, t, x)

/-- `x' = -s` with the Euler method and the function `x - c`, in `double` -/
def fallBy (s c : ℚ) : Method (Rd (binary 53 : ℚ → ℚ)) (Vec (binary 53 : ℚ → ℚ) 1) (Ctl (Rd (binary 53 : ℚ → ℚ)) × Unit) where
  co := round (binary 53) euler
  rhs _ _ := fun _ => ⟨-s⟩
  ec := some (controller (fall c))

/-- Before the first step of size 1 -/
def fallFrom (x : ℚ) : FixedSt (Rd (binary 53 : ℚ → ℚ)) (Vec (binary 53 : ℚ → ℚ) 1) (Ctl (Rd (binary 53 : ℚ → ℚ)) × Unit) where
  t := ⟨0⟩
  x := fun _ => ⟨x⟩
  h := none
  out := Output.mkEmpty
  hInit := ⟨1⟩
  ec := (Ctl.init, ())
  log := []

theorem ok_of_test {α : Type} {x : Res α} {p : α → Prop} [DecidablePred p]
    (h : (match x with | .ok a => decide (p a) | _ => false) = true) : ∃ a, x = .ok a ∧ p a := by
  cases x with
  | error e => cases h
  | ok a => exact ⟨a, rfl, of_decide_eq_true h⟩

/-- C137 is false: the step from 1 to 0 falls through the level `2^-60`, but the quotient is rounded to 1 and the code throws. -/
theorem C137_tiny_false :
    (∃ s', (fallFrom 1).doStep { fallBy 1 (1 / 2 ^ 60) with ec := none } = .ok s' ∧ (s'.x 0).val = 0) ∧
    (fallFrom 1).doStep (fallBy 1 (1 / 2 ^ 60)) = .error (.exc "out_of_range") := by
  refine ⟨ok_of_test (p := fun s' : FixedSt (Rd (binary 53 : ℚ → ℚ)) (Vec (binary 53 : ℚ → ℚ) 1) (Ctl (Rd (binary 53 : ℚ → ℚ)) × Unit) =>
    (s'.x 0).val = 0) (by decide +kernel), ?_⟩
  have h : (match (fallFrom 1).doStep (fallBy 1 (1 / 2 ^ 60)) with
    | .error (.exc msg) => decide (msg = "out_of_range")
    | _ => false) = true := by decide +kernel
  split at h
  · next msg hm => rw [hm, of_decide_eq_true h]
  · cases h

/-- C137 is false: `x` falls from 2 with the slope -5. The first step is cut at the event, at the time `0.4`; the value remembered there
is not zero but slightly below, and the next step is cut at a time before the first one. -/
theorem C137_back_false : ∃ s s', (fallFrom 2).doStep (fallBy 5 0) = .ok s ∧ s.doStep (fallBy 5 0) = .ok s' ∧
    s.t.val = binary 53 (2 / 5) ∧ s'.t < s.t := by
  obtain ⟨s', h1, h2⟩ := ok_of_test (x := (fallFrom 2).doStep (fallBy 5 0) >>= fun s => s.doStep (fallBy 5 0) >>= fun s' =>
      (.ok (s, s') : Res (_ × _)))
    (p := fun p => p.1.t.val = binary 53 (2 / 5) ∧ p.2.t < p.1.t) (by decide +kernel)
  cases ha : (fallFrom 2).doStep (fallBy 5 0) with
  | error e => rw [ha] at h1; cases h1
  | ok a =>
    rw [ha, bind_ok] at h1
    cases hb : a.doStep (fallBy 5 0) with
    | error e => rw [hb] at h1; cases h1
    | ok b =>
      rw [hb, bind_ok] at h1
      cases h1
      exact ⟨a, b, rfl, hb, h2⟩

/-- The hypotheses are met: the first step of `C137_back_false`. -/
example : ∃ e : Ctl (Rd (binary 53 : ℚ → ℚ)), Armed e 1 ∧ (∀ z ∈ e.zf1, Value z) ∧ Value e.t1 ∧ e.t1 ≤ ⟨1⟩ ∧
    Value (⟨1⟩ : Rd (binary 53 : ℚ → ℚ)) ∧ Grid (binary 53 : ℚ → ℚ) (1 / 2 ^ 53) ∧ (1 / 2 ^ 53 : ℚ) ≤ 1 / 4 ∧
    Crosses (e.flags.getD 0 0) (e.state.getD 0 0) (((fall 0).zeroFunctions () ⟨1⟩ (fun _ => ⟨-3⟩)).getD 0 0) ∧
    3 * (1 / 2 ^ 53) * |(e.zf1.getD 0 0).val| < |(((fall 0).zeroFunctions () ⟨1⟩ (fun _ => ⟨-3⟩)).getD 0 0).val| := by
  refine ⟨⟨false, true, false, [⟨2⟩], [], [], [1], [1], ⟨0⟩⟩, ⟨rfl, rfl, by norm_num, rfl, rfl, rfl, by decide, fun i hi => ?_⟩,
    fun z hz => ?_, by unfold Value; decide +kernel, by decide +kernel, by unfold Value; decide +kernel, binary_grid (by norm_num),
    by norm_num, ?_, by decide +kernel⟩
  · obtain rfl : i = 0 := by omega
    exact .inl ⟨by decide, by decide +kernel, .inr rfl⟩
  · simp only [List.mem_singleton] at hz
    subst hz
    unfold Value
    decide +kernel
  · exact .inl ⟨by decide, .inl ⟨rfl, by decide +kernel⟩⟩

end Verif.Round
