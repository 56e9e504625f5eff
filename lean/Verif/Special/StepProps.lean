import Verif.Special.Lemmas
import Verif.RK.Attempt
import Verif.RK.Kernel
import Verif.Witness
import Mathlib.Data.Fintype.Pi
import Mathlib.Analysis.SpecialFunctions.Pow.Real

/-! # Steps with error control when values are not numbers (C123) -/

set_option linter.unusedSectionVars false
set_option linter.unusedSimpArgs false

namespace Verif.Special

open Fl Verif.Res

/-! ### The kernel -/

section
variable {R V : Type} [Zero R] [Add R] [Mul R] [DecidableEq R] [Zero V] [Add V] [SMul R V]

theorem accumulate_inv (P : V → Prop) (hP : ∀ v w, P v → P (v + w)) (a : List R) (k : List V) (h : R) (n : Nat)
    (x1 : V) (pos : Nat) (ha : pos + n ≤ a.length) (hk : n ≤ k.length) (hx : P x1) :
    ∃ v, P v ∧ loop 0 n (fun i (s : V × Nat) => do
      let av ← raw a s.2
      if av ≠ 0 then do
        let ki ← raw k i
        .ok (s.1 + (h * av) • ki, s.2 + 1)
      else .ok (s.1, s.2 + 1)) (x1, pos) = .ok (v, pos + n) := by
  have := loop_post (lo := 0) (hi := n) (s := (x1, pos)) (E := fun _ => False)
    (f := fun i (s : V × Nat) => do
      let av ← raw a s.2
      if av ≠ 0 then do
        let ki ← raw k i
        .ok (s.1 + (h * av) • ki, s.2 + 1)
      else .ok (s.1, s.2 + 1))
    (fun m s => P s.1 ∧ s.2 = pos + m)
    (Nat.zero_le _) ⟨hx, rfl⟩ ?_
  · obtain ⟨⟨v, q⟩, hr, h1, h2⟩ := post_false_iff.1 this
    simp only at h1 h2
    subst h2
    exact ⟨v, h1, hr⟩
  · rintro i ⟨v, q⟩ _ hi ⟨h1, h2⟩
    simp only at h1 h2
    subst h2
    rw [RK.raw_getD 0 (by omega)]
    simp only [bind_ok]
    split
    · rw [RK.raw_getD 0 (by omega)]
      simp only [bind_ok, post_ok]
      exact ⟨hP _ _ h1, by omega⟩
    · simp only [post_ok]
      exact ⟨h1, by omega⟩

/-- A property of the state that adding anything preserves is had by all outputs of a step. -/
theorem compute_inv (P : V → Prop) (hP : ∀ v w, P v → P (v + w)) (o : RK.Output V) (co : RK.Coefficients R)
    (rhs : R → V → V) (x1 : V) (t1 h : R) (hs : co.Sizes o.k.length o.x2.length)
    (h2 : 2 ≤ o.k.length ∨ ∀ v, P v) (hx : P x1) :
    ∃ o', RK.compute o co rhs x1 t1 h = .ok o' ∧ o'.k.length = o.k.length ∧ o'.x2.length = o.x2.length ∧
      ∀ v ∈ o'.x2, P v := by
  have hpos := hs.pos
  have hb := hs.b
  have stages := loop_post (lo := 1) (hi := o.k.length) (f := RK.stageStep co rhs x1 t1 h)
    (s := ({ o with k := o.k.set 0 (rhs t1 x1) }, 0)) (E := fun _ => False)
    (fun m s => s.1.k.length = o.k.length ∧ s.2 = m * (m - 1) / 2 ∧ s.1.x2 = o.x2 ∧ (2 ≤ m → P s.1.buf))
    hpos ⟨by simp, rfl, rfl, by omega⟩ (by
      rintro m ⟨⟨k, x2, buf⟩, pos⟩ hm1 hm ⟨h1, h2, h3, -⟩
      simp only at h1 h2 h3
      subst h2 h3
      unfold RK.stageStep RK.stageArg
      have htri := RK.tri_le hm
      obtain ⟨v, hv, e⟩ := accumulate_inv P hP co.a k h m x1 (m * (m - 1) / 2) (by rw [hs.a]; omega) (by omega) hx
      simp only
      rw [e]
      simp only [bind_ok]
      rw [RK.raw_getD 0 (by have := hs.c; omega)]
      simp only [bind_ok]
      unfold rawSet
      rw [if_pos (by omega)]
      simp only [bind_ok, post_ok]
      exact ⟨by simp [h1], (RK.tri_succ m).symm, trivial, fun _ => hv⟩)
  obtain ⟨⟨o1, pos⟩, e1, k1, -, k3, k4⟩ := post_false_iff.1 stages
  simp only at k1 k3 k4
  replace k4 : P o1.buf := h2.elim k4 (fun h => h _)
  have outs := loop_post (lo := 0) (hi := o.x2.length) (f := RK.outputStep co o.k.length x1 h)
    (s := (o1, 0)) (E := fun _ => False)
    (fun m s => s.1.k = o1.k ∧ s.1.x2.length = o.x2.length ∧ s.2 = m * o.k.length ∧
      ((∀ j, j < m → (j : Int) ≠ co.lastK) → s.1.buf = o1.buf) ∧
      ∀ ix, ix < m → P (s.1.x2.getD ix 0))
    (Nat.zero_le _) ⟨rfl, by rw [k3], by simp, fun _ => rfl, by omega⟩ (by
      rintro m ⟨⟨k', x2, buf'⟩, pos'⟩ _ hm ⟨a1, a2, a3, a4, a5⟩
      simp only at a1 a2 a3 a4 a5
      subst a1 a3
      unfold RK.outputStep
      split
      · rename_i hl
        simp only
        rw [RK.raw_getD 0 (by omega)]
        simp only [bind_ok]
        unfold rawSet
        rw [if_pos (by omega)]
        simp only [bind_ok, post_ok]
        refine ⟨trivial, by simp [a2], by ring, fun hx => absurd hl (hx m (by omega)), ?_⟩
        intro ix hix
        rcases Nat.lt_succ_iff_lt_or_eq.1 hix with hix | rfl
        · rw [RK.getD_set_ne (by omega)]
          exact a5 ix hix
        · rw [RK.getD_set_self (by omega), a4 (fun j hj hjl => ?_)]
          · exact k4
          · have : (j : Int) = ix := by rw [hjl, hl]
            omega
      · rename_i hl
        unfold RK.combine
        have hmS : m * o.k.length + o.k.length ≤ o.k.length * o.x2.length := by
          have : (m + 1) * o.k.length ≤ o.x2.length * o.k.length := Nat.mul_le_mul_right _ (by omega)
          rw [Nat.mul_comm o.k.length]
          have e : (m + 1) * o.k.length = m * o.k.length + o.k.length := by ring
          omega
        obtain ⟨v, hv, e⟩ := accumulate_inv P hP co.b o1.k h o.k.length x1 (m * o.k.length)
          (by rw [hb]; exact hmS) (by omega) hx
        simp only
        rw [e]
        simp only [bind_ok]
        unfold rawSet
        rw [if_pos (by omega)]
        simp only [bind_ok, post_ok]
        refine ⟨trivial, by simp [a2], by ring, fun hx => a4 (fun j hj => hx j (by omega)), ?_⟩
        intro ix hix
        rcases Nat.lt_succ_iff_lt_or_eq.1 hix with hix | rfl
        · rw [RK.getD_set_ne (by omega)]
          exact a5 ix hix
        · rw [RK.getD_set_self (by omega)]
          exact hv)
  obtain ⟨⟨o2, pos2⟩, e2, l1, l2, -, -, l5⟩ := post_false_iff.1 outs
  simp only at l1 l2 l5
  refine ⟨o2, ?_, by rw [l1, k1], l2, fun v hv => ?_⟩
  · unfold RK.compute rawSet
    rw [if_pos (by omega)]
    simp only [bind_ok]
    rw [e1]
    simp only [bind_ok]
    rw [e2]
    simp only [bind_ok]
  · obtain ⟨i, hi, rfl⟩ := List.getElem_of_mem hv
    have := l5 i (by omega)
    rwa [List.getD_eq_getElem?_getD, List.getElem?_eq_getElem hi] at this

end

/-! ### Error control -/

section
variable {K E : Type} [Field K] [LinearOrder K] [IsStrictOrderedRing K] {n : Nat}

/-- C123: on numbers the controller is the one of `Verif.RK.Solver`. -/
theorem C123_control (c : RK.CtlParams K) (pw : K → K → K) (h err : K) (order : Nat) :
    control c pw (num h) (num err) order =
      ⟨num (c.control pw h err order).newStepSize, (c.control pw h err order).acceptStep,
        (c.control pw h err order).changeStepSize⟩ := by
  unfold control RK.CtlParams.control
  by_cases he : err = 0
  · simp [he, zero_def]
  · have ho : (order : K) + 1 ≠ 0 := by positivity
    rw [if_neg (by simpa [zero_def] using he), if_neg he]
    simp only [nat_def, one_def, zero_def, num_add, num_div he, num_div ho, Fl.pow, num_mul, num_le, num_lt, num_sub]
    generalize pw (c.tolerance / err) (1 / ((order : K) + 1)) = p
    by_cases hp : 1 ≤ p
    · simp only [if_pos hp]
      by_cases ho : 0 < c.maxThreshold ∧ c.maxThreshold < p * c.insurance * h
      · have hh : h ≠ 0 := by
          rintro rfl
          rw [mul_zero] at ho
          exact absurd (ho.1.trans ho.2) (lt_irrefl _)
        simp only [ho, and_self, if_true, true_and, num_div hh, num_lt]
        generalize c.maxThreshold / h = q
        by_cases h1 : q < 1
        · simp only [h1, if_true]
        · by_cases h2 : 0 < c.incMin ∧ q < c.incMin
          · simp only [h1, h2, and_self, if_true, if_false]
          · by_cases h3 : 0 < c.incMax ∧ c.incMax < q
            · simp only [h1, h2, h3, and_self, if_true, if_false, num_mul]
            · simp only [h1, h2, h3, if_false, num_mul]
      · simp only [ho, if_false, false_and, num_lt]
        generalize p * c.insurance = q
        by_cases h2 : 0 < c.incMin ∧ q < c.incMin
        · simp only [h2, and_self, if_true]
        · by_cases h3 : 0 < c.incMax ∧ c.incMax < q
          · simp only [h2, h3, and_self, if_true, if_false, num_mul]
          · simp only [h2, h3, if_false, num_mul]
    · by_cases h1 : 1 - RK.geomEps < p
      · simp only [hp, h1, if_true, if_false]
      · by_cases h3 : 0 < c.decMax ∧ p * c.insurance < c.decMax
        · simp only [hp, h1, h3, and_self, if_true, if_false, num_mul]
        · simp only [hp, h1, h3, if_false, num_mul]

/-- Whether a step is accepted does not depend on its size; an error estimate that is infinite is not
accepted, and neither is one that is not a number. -/
theorem control_accept (c : RK.CtlParams K) (pw : K → K → K) (h0 : ∀ y, 0 < y → pw 0 y = 0) (h err : Fl K)
    (order : Nat) (h' : K) (herr : 0 ≤ err ∨ err = nan) :
    (control c pw h err order).acceptStep = true ↔
      ∃ r, err = num r ∧ (c.control pw h' r order).acceptStep = true := by
  have ho : (0 : K) < 1 / ((order : K) + 1) := by positivity
  have ho' : (order : K) + 1 ≠ 0 := by positivity
  cases err with
  | nan =>
    refine ⟨fun h => ?_, fun ⟨r, h, _⟩ => by cases h⟩
    unfold control at h
    rw [if_neg (by simp [zero_def])] at h
    simp only [div_nan, show ∀ y, Fl.pow pw nan y = nan from fun y => by cases y <;> rfl, nan_mul, le_nan,
      lt_nan, if_false] at h
    simp at h
  | inf s =>
    refine ⟨fun h => ?_, fun ⟨r, h, _⟩ => by cases h⟩
    unfold control at h
    rw [if_neg (by simp [zero_def])] at h
    have e : Fl.pow pw (num 0) (1 / ((order : Fl K) + 1)) = num 0 := by
      rw [nat_def, one_def, num_add, num_div ho']
      exact congrArg num (h0 _ ho)
    simp only [num_div_inf, e] at h
    have g : ¬ (1 - (RK.geomEps : K) < 0) := by
      unfold RK.geomEps
      rw [not_lt, sub_nonneg, div_le_one (by norm_num)]
      norm_num
    simp only [one_def, num_le, num_sub, num_lt, g, if_false,
      show ¬ (1 : K) ≤ 0 by simp] at h
    simp at h
  | num r =>
    simp only [num.injEq, exists_eq_left']
    unfold control RK.CtlParams.control
    by_cases he : r = 0
    · simp [he, zero_def]
    · rw [if_neg (by simpa [zero_def] using he), if_neg he]
      simp only [nat_def, one_def, zero_def, num_add, num_div he, num_div ho', Fl.pow, num_mul, num_le, num_lt,
        num_sub]
      generalize pw (c.tolerance / r) (1 / ((order : K) + 1)) = p
      by_cases hp : 1 ≤ p
      · simp only [if_pos hp]
        constructor <;> intro _ <;> split <;> (try split) <;> (try split) <;> rfl
      · simp only [if_neg hp]
        split <;> simp

/-- An infinite component, of either sign, makes the maximum norm infinite. -/
theorem C123_norm_inf (v : V K n) (i : Fin n) (b : Bool) (h : v i = inf b) : infNorm v = inf false := by
  obtain ⟨h1, -, h3, -⟩ := infNorm_spec v
  rcases h3 i with h3 | h3
  · rw [h] at h3
    cases h3
  · rw [h, abs_inf] at h3
    revert h1 h3
    cases infNorm v with
    | nan => intro h; exact absurd rfl h
    | num a => intro _ h; exact absurd h (by simp)
    | inf b => cases b <;> simp

/-- The maximum norm leaves out what is not a number. -/
theorem C123_norm (v : V K n) : infNorm v = infNorm (fun i => if v i = nan then 0 else v i) ∧
    infNorm v ≠ nan := by
  refine ⟨?_, (infNorm_spec v).1⟩
  unfold infNorm
  have : ∀ (l : List (Fl K)) (a : Fl K), 0 ≤ a → a ≠ nan → l.foldl (fun r x => Fl.max r x.abs) a =
      (l.map fun x => if x = nan then 0 else x).foldl (fun r x => Fl.max r x.abs) a := by
    intro l
    induction l with
    | nil => intro a _ _; rfl
    | cons x l ih =>
      intro a h0 ha
      rw [List.map_cons, List.foldl_cons, List.foldl_cons]
      have hm : Fl.max a ((if x = nan then 0 else x).abs) = Fl.max a x.abs := by
        by_cases hx : x = nan
        · subst hx
          simp only [if_true, abs_nan, Fl.max, lt_nan, if_false, zero_def, num_abs, abs_zero]
          rw [if_neg]
          cases a with
          | nan => exact absurd rfl ha
          | num b => simpa [zero_def] using h0
          | inf s => simpa [zero_def] using h0
        · rw [if_neg hx]
      rw [hm]
      refine ih _ ?_ ?_
      · unfold Fl.max
        split
        · cases x <;> simp [zero_def]
          simp_all
        · exact h0
      · unfold Fl.max
        split
        · rename_i h
          intro hn
          rw [hn] at h
          simp at h
        · exact ha
  rw [this _ 0 (by simp [zero_def]) (by simp [zero_def]), ← List.ofFn_comp']

/-- A solver that uses the maximum norm and the controller, with no event controller -/
structure Plain (c : RK.CtlParams K) (pw : K → K → K) (m : RK.EmbMethod (Fl K) (V K n) E) : Prop where
  ec : m.ec = none
  norm : m.norm = infNorm
  control : m.control = control c pw
  check : m.disableErrorCheck = false
  sizes : m.co.Sizes (m.co.c.length + 1) 2
  stages : m.co.c ≠ []

/-- The buffers are not allocated, or are allocated and the step size is set. -/
def Ready (m : RK.EmbMethod (Fl K) (V K n) E) (s : RK.FixedSt (Fl K) (V K n) E) : Prop :=
  s.out.k = [] ∨ (s.out.k.length = m.co.c.length + 1 ∧ s.out.x2.length = 2 ∧ s.h ≠ none)

/-- A step that is accepted has an error estimate whose components are numbers within what the controller
accepts, or not numbers. -/
theorem C123_accepted_partial {c : RK.CtlParams K} {pw : K → K → K} (h0 : ∀ y, 0 < y → pw 0 y = 0)
    {m : RK.EmbMethod (Fl K) (V K n) E} (hm : Plain c pw m) {s s' : RK.FixedSt (Fl K) (V K n) E} (h' : K)
    (h : s.attempt m = .ok (.accepted s')) :
    ∃ hs hi lo o' r, s.stepInUse = some hs ∧
      RK.compute (s.initStep2 m).out m.co m.rhs s.x s.t hs = .ok o' ∧ o'.x2[0]? = some hi ∧
      o'.x2[1]? = some lo ∧ s'.x = (if m.lowMode then lo else hi) ∧ s'.t = s.t + hs ∧
      (∀ i, hi i - lo i = nan ∨ ∃ e, hi i - lo i = num e ∧ |e| ≤ r) ∧
      (c.control pw h' r m.lowOrder).acceptStep = true := by
  obtain ⟨hs, hi, lo, o', a1, a2, a3, a4, -, -, -, -, e, tr, a9, -, a11, -, -, a14, -⟩ := RK.attempt_outcome h
  simp only at a14
  have hv : m.verdict hs hi lo = control c pw hs (infNorm (hi - lo)) m.lowOrder := by
    unfold RK.EmbMethod.verdict
    rw [hm.check, hm.norm, hm.control]
    simp
  have hacc := a14
  rw [hv, control_accept c pw h0 _ _ _ h' (.inl (infNorm_spec _).2.1)] at hacc
  obtain ⟨r, hr, hacc⟩ := hacc
  have hend := a11 a14
  unfold RK.ecEnd at hend
  rw [hm.ec] at hend
  simp only [Except.ok.injEq, Prod.mk.injEq] at hend
  refine ⟨hs, hi, lo, o', r, a1, a2, a3, a4, hend.2.1.symm, hend.2.2.1.symm, fun i => ?_, hacc⟩
  rcases (infNorm_spec (hi - lo)).2.2.1 i with hn | hn
  · exact .inl hn
  · right
    rw [hr] at hn
    have e1 : (hi - lo) i = hi i - lo i := rfl
    rw [e1] at hn
    cases he : hi i - lo i with
    | num e => exact ⟨e, rfl, by rw [he] at hn; simpa using hn⟩
    | inf t => rw [he] at hn; simp at hn
    | nan => rw [he] at hn; simp at hn

/-- If both outputs are numbers, no component of the error is above the bound of the controller. -/
theorem C123_partial {c : RK.CtlParams K} {pw : K → K → K} (h0 : ∀ y, 0 < y → pw 0 y = 0)
    {m : RK.EmbMethod (Fl K) (V K n) E} (hm : Plain c pw m) {s s' : RK.FixedSt (Fl K) (V K n) E} (h' : K)
    (hnum : ∀ hs o', s.stepInUse = some hs → RK.compute (s.initStep2 m).out m.co m.rhs s.x s.t hs = .ok o' →
      ∀ v ∈ o'.x2, Numbers v)
    (h : s.attempt m = .ok (.accepted s')) :
    Numbers s'.x ∧ ∃ hs hi lo o' r, s.stepInUse = some hs ∧
      RK.compute (s.initStep2 m).out m.co m.rhs s.x s.t hs = .ok o' ∧ o'.x2[0]? = some hi ∧
      o'.x2[1]? = some lo ∧ (∀ i, ∃ e, hi i - lo i = num e ∧ |e| ≤ r) ∧
      (c.control pw h' r m.lowOrder).acceptStep = true := by
  obtain ⟨hs, hi, lo, o', r, a1, a2, a3, a4, a5, -, a7, a8⟩ := C123_accepted_partial h0 hm h' h
  have n0 := hnum hs o' a1 a2 hi (List.mem_of_getElem? a3)
  have n1 := hnum hs o' a1 a2 lo (List.mem_of_getElem? a4)
  refine ⟨by rw [a5]; split <;> assumption, hs, hi, lo, o', r, a1, a2, a3, a4, fun i => ?_, a8⟩
  rcases a7 i with hn | hn
  · obtain ⟨a, ha⟩ := n0 i
    obtain ⟨b, hb⟩ := n1 i
    rw [ha, hb, num_sub] at hn
    cases hn
  · exact hn

/-- If the error estimate has no component that is a number, the step is accepted and the step size kept,
whatever the tolerance. -/
theorem C123_lost {c : RK.CtlParams K} {pw : K → K → K} {m : RK.EmbMethod (Fl K) (V K n) E} (hm : Plain c pw m)
    {s : RK.FixedSt (Fl K) (V K n) E} {hs : Fl K} {o' : RK.Output (V K n)} {hi lo : V K n}
    (a1 : s.stepInUse = some hs)
    (a2 : RK.compute (s.initStep2 m).out m.co m.rhs s.x s.t hs = .ok o') (a3 : o'.x2 = [hi, lo])
    (hl : Nowhere (hi - lo)) :
    ∃ s', s.attempt m = .ok (.accepted s') ∧ s'.x = (if m.lowMode then lo else hi) ∧ s'.t = s.t + hs ∧
      s'.h = some hs ∧ s'.out.k = o'.k ∧ s'.out.x2.length = 2 := by
  unfold RK.FixedSt.attempt
  obtain ⟨si, hsi⟩ : ∃ si, RK.FixedSt.initStep2 m { s with log := .pre s.h :: s.log } = si := ⟨_, rfl⟩
  have hi' : si.t = s.t ∧ si.x = s.x ∧ si.h = s.stepInUse ∧ si.out = (s.initStep2 m).out := by
    unfold RK.FixedSt.initStep2 at hsi ⊢
    unfold RK.FixedSt.stepInUse
    simp only at hsi
    split at hsi <;> subst hsi <;> simp_all
  obtain ⟨i1, i2, i3, i4⟩ := hi'
  simp only [hsi]
  unfold RK.ecStart RK.ecEnd
  rw [hm.ec]
  simp only [bind_ok]
  rw [i3, a1]
  simp only [RK.readH, bind_ok]
  rw [i1, i2, i4, a2]
  simp only [bind_ok]
  rw [a3]
  simp only [raw, List.getElem?_cons_zero, List.getElem?_cons_succ, bind_ok, hm.check, Bool.not_false, Bool.true_or,
    if_true, Bool.false_eq_true, if_false]
  have hv : m.control hs (m.norm (hi - lo)) m.lowOrder = ⟨hs, true, false⟩ := by
    rw [hm.control, hm.norm, infNorm_nowhere hl]
    unfold control
    rw [if_pos rfl]
  rw [hv]
  simp only [if_true, Bool.false_eq_true, if_false, Bool.false_and]
  unfold RK.EmbMethod.modeIndex
  cases m.lowMode with
  | false =>
    simp only [Bool.false_eq_true, if_false, a3, List.getElem?_cons_zero, bind_ok, rawSet, List.length_cons,
      List.length_nil, Nat.zero_lt_succ, if_true, RK.Trunc.none, Bool.false_and]
    exact ⟨_, rfl, rfl, rfl, rfl, rfl, rfl⟩
  | true =>
    simp only [if_true, a3, List.getElem?_cons_succ, List.getElem?_cons_zero, bind_ok, rawSet, List.length_cons,
      List.length_nil, Nat.one_lt_succ_succ, RK.Trunc.none, Bool.false_and, Bool.false_eq_true, if_false,
      show (1 : Nat) < 0 + 1 + 1 from by omega]
    exact ⟨_, rfl, rfl, rfl, rfl, rfl, rfl⟩

/-- `N` steps -/
def steps (m : RK.EmbMethod (Fl K) (V K n) E) : Nat → RK.FixedSt (Fl K) (V K n) E →
    Option (RK.FixedSt (Fl K) (V K n) E)
  | 0, s => some s
  | N + 1, s =>
    match s.doStepEmb m 1 with
    | some (.ok (.accepted s')) => steps m N s'
    | _ => none

/-- Once no component of the state is a number, every later step succeeds at the first attempt with the same
step size, and the state never has a number again, whatever the right-hand side, the method and the
tolerance. -/
theorem C123_forever {c : RK.CtlParams K} {pw : K → K → K} {m : RK.EmbMethod (Fl K) (V K n) E} (hm : Plain c pw m)
    {hs : K} (N : Nat) {t : K} {s : RK.FixedSt (Fl K) (V K n) E} (hr : Ready m s)
    (hh : s.stepInUse = some (num hs)) (ht : s.t = num t) (hx : Nowhere s.x) :
    ∃ s', steps m N s = some s' ∧ Nowhere s'.x ∧ s'.t = num (t + N * hs) ∧ s'.stepInUse = some (num hs) := by
  induction N generalizing s t with
  | zero => exact ⟨s, rfl, hx, by simpa using ht, hh⟩
  | succ N ih =>
    have hl : (s.initStep2 m).out.k.length = m.co.c.length + 1 ∧ (s.initStep2 m).out.x2.length = 2 := by
      unfold RK.FixedSt.initStep2
      rcases hr with hr | ⟨h1, h2, -⟩
      · rw [if_pos (by simp [hr])]
        simp [RK.Output.mk']
      · rw [if_neg (by rw [List.isEmpty_iff]; intro h; rw [h] at h1; simp at h1)]
        exact ⟨h1, h2⟩
    have hc : 0 < m.co.c.length := List.length_pos_of_ne_nil hm.stages
    obtain ⟨o', e, k1, k2, k3⟩ := compute_inv Nowhere
      (fun v w hv i => by change v i + w i = nan; rw [hv i, nan_add]) (s.initStep2 m).out m.co m.rhs s.x s.t (num hs)
      (by rw [hl.1, hl.2]; exact hm.sizes) (.inl (by rw [hl.1]; omega)) hx
    rw [hl.2] at k2
    obtain ⟨hi, lo, e2⟩ : ∃ hi lo, o'.x2 = [hi, lo] := by
      match h : o'.x2, k2 with
      | [a, b], _ => exact ⟨a, b, rfl⟩
    have n0 : Nowhere hi := k3 hi (by rw [e2]; simp)
    have n1 : Nowhere lo := k3 lo (by rw [e2]; simp)
    obtain ⟨s', b1, b2, b3, b4, b5, b6⟩ := C123_lost hm hh e e2 (fun i => by
      change hi i - lo i = nan
      rw [n0 i, nan_sub])
    have hk : s'.out.k.length = m.co.c.length + 1 := by rw [b5, k1, hl.1]
    have hu : s'.stepInUse = some (num hs) := by
      unfold RK.FixedSt.stepInUse
      rw [if_neg (by rw [List.isEmpty_iff]; intro h; rw [h] at hk; simp at hk)]
      exact b4
    obtain ⟨s2, c1, c2, c3, c4⟩ := ih (t := t + hs) (s := s') (.inr ⟨hk, b6, by rw [b4]; simp⟩) hu
      (by rw [b3, ht, num_add]) (by rw [b2]; split <;> assumption)
    refine ⟨s2, ?_, c2, by rw [c3]; push_cast; ring_nf, c4⟩
    unfold steps RK.FixedSt.doStepEmb
    rw [b1]
    exact c1

/-- If the norm of the error is not a number (a norm other than the one the library has), the step is repeated
for ever. -/
theorem C123_other_norm {c : RK.CtlParams K} {pw : K → K → K} {m : RK.EmbMethod (Fl K) (V K n) E}
    (hm : m.control = control c pw) (hck : m.disableErrorCheck = false) (hec : m.ec = none)
    (hsz : m.co.Sizes (m.co.c.length + 1) 2) (hst : m.co.c ≠ [])
    (hn : ∀ v, (∀ i, v i = nan) → m.norm v = nan) {s : RK.FixedSt (Fl K) (V K n) E} (hr : Ready m s)
    (hx : Nowhere s.x) (fuel : Nat) : s.doStepEmb m fuel = none := by
  induction fuel generalizing s with
  | zero => rfl
  | succ fuel ih =>
    have hl : (s.initStep2 m).out.k.length = m.co.c.length + 1 ∧ (s.initStep2 m).out.x2.length = 2 := by
      unfold RK.FixedSt.initStep2
      rcases hr with hr | ⟨h1, h2, -⟩
      · rw [if_pos (by simp [hr])]
        simp [RK.Output.mk']
      · rw [if_neg (by rw [List.isEmpty_iff]; intro h; rw [h] at h1; simp at h1)]
        exact ⟨h1, h2⟩
    have hc : 0 < m.co.c.length := List.length_pos_of_ne_nil hst
    obtain ⟨hs, hh⟩ : ∃ hs, s.stepInUse = some hs := by
      unfold RK.FixedSt.stepInUse
      rcases hr with hr | ⟨h1, h2, h3⟩
      · rw [if_pos (by simp [hr])]; exact ⟨_, rfl⟩
      · rw [if_neg (by rw [List.isEmpty_iff]; intro h; rw [h] at h1; simp at h1)]
        exact Option.ne_none_iff_exists'.mp h3
    obtain ⟨o', e, k1, k2, k3⟩ := compute_inv Nowhere
      (fun v w hv i => by change v i + w i = nan; rw [hv i, nan_add]) (s.initStep2 m).out m.co m.rhs s.x s.t hs
      (by rw [hl.1, hl.2]; exact hsz) (.inl (by rw [hl.1]; omega)) hx
    rw [hl.2] at k2
    obtain ⟨hi, lo, e2⟩ : ∃ hi lo, o'.x2 = [hi, lo] := by
      match h : o'.x2, k2 with
      | [a, b], _ => exact ⟨a, b, rfl⟩
    have n0 : Nowhere hi := k3 hi (by rw [e2]; simp)
    have hv : ∀ h : Fl K, control c pw h nan m.lowOrder = ⟨nan, false, true⟩ := by
      intro h
      unfold control
      rw [if_neg (by simp [zero_def])]
      simp only [div_nan, show ∀ y, Fl.pow pw nan y = nan from fun y => by cases y <;> rfl, nan_mul, le_nan,
        lt_nan, nan_lt, if_false, and_false, mul_nan]
    have hver : m.verdict hs hi lo = ⟨nan, false, true⟩ := by
      unfold RK.EmbMethod.verdict
      rw [hck, hm, hn _ (fun i => by change hi i - lo i = nan; rw [n0 i, nan_sub]), hv]
      simp
    have : ∃ s', s.attempt m = .ok (.rejected s') ∧ s'.x = s.x ∧ s'.out.k = o'.k ∧ s'.out.x2.length = 2 ∧ s'.h ≠ none := by
      unfold RK.FixedSt.attempt
      obtain ⟨si, hsi⟩ : ∃ si, RK.FixedSt.initStep2 m { s with log := .pre s.h :: s.log } = si := ⟨_, rfl⟩
      have hi' : si.t = s.t ∧ si.x = s.x ∧ si.h = s.stepInUse ∧ si.out = (s.initStep2 m).out := by
        unfold RK.FixedSt.initStep2 at hsi ⊢
        unfold RK.FixedSt.stepInUse
        simp only at hsi
        split at hsi <;> subst hsi <;> simp_all
      obtain ⟨i1, i2, i3, i4⟩ := hi'
      simp only [hsi]
      unfold RK.ecStart
      rw [hec]
      simp only [bind_ok]
      rw [i3, hh]
      simp only [RK.readH, bind_ok]
      rw [i1, i2, i4, e]
      simp only [bind_ok]
      rw [e2]
      simp only [raw, List.getElem?_cons_zero, List.getElem?_cons_succ, bind_ok, hck, Bool.not_false,
        Bool.true_or, if_true, Bool.false_eq_true, if_false]
      unfold RK.EmbMethod.verdict at hver
      rw [hck] at hver
      simp only [Bool.false_eq_true, if_false] at hver
      rw [hver]
      simp only [Bool.false_eq_true, if_false, if_true, bind_ok, Bool.true_and, decide_eq_true_eq, nan_le,
        RK.Trunc.none, Bool.false_and]
      exact ⟨_, rfl, rfl, rfl, by simp, by simp⟩
    obtain ⟨s', c1, c2, c3, c4, c5⟩ := this
    unfold RK.FixedSt.doStepEmb
    rw [c1]
    exact ih (.inr ⟨by rw [c3, k1, hl.1], c4, c5⟩) (by rw [c2]; exact hx)

end

/-! ### Examples -/

/-- The condition on `pw` above holds of powers. -/
example : ∀ y : ℝ, 0 < y → (0 : ℝ) ^ y = 0 := fun _ h => Real.zero_rpow h.ne'


/-- Right-hand side `-1`, defined for nonnegative values only -/
def bounded (_ : Fl ℚ) (x : V ℚ 1) : V ℚ 1 := fun i =>
  match x i with
  | num a => if 0 ≤ a then num (-1) else nan
  | inf false => num (-1)
  | _ => nan

/-- DOPRI45 with that right-hand side -/
def boundedMethod (c : RK.CtlParams ℚ) (pw : ℚ → ℚ → ℚ) : RK.EmbMethod (Fl ℚ) (V ℚ 1) Unit where
  co := ⟨RK.dopri45.a.map num, RK.dopri45.b.map num, RK.dopri45.c.map num, RK.dopri45.lastK⟩
  rhs := bounded
  ec := none
  highOrder := 5
  lowOrder := 4
  disableErrorCheck := false
  forceErrorCalc := false
  hAfterSwitch := 0
  lowMode := false
  hMin := num (1 / 10000000000)
  norm := infNorm
  control := control c pw

theorem boundedMethod_plain (c : RK.CtlParams ℚ) (pw : ℚ → ℚ → ℚ) : Plain c pw (boundedMethod c pw) where
  ec := rfl
  norm := rfl
  control := rfl
  check := rfl
  sizes := ⟨by simp [boundedMethod, RK.dopri45], by simp [boundedMethod, RK.dopri45],
    by simp [boundedMethod, RK.dopri45], rfl⟩
  stages := by simp [boundedMethod, RK.dopri45]

/-- The solver at `x = 1/2` with step size 1 -/
def boundedStart : RK.FixedSt (Fl ℚ) (V ℚ 1) Unit :=
  ⟨num 0, fun _ => num (1 / 2), none, RK.Output.mkEmpty, num 1, (), []⟩

theorem bounded_kernel : ∃ o', RK.compute (RK.Output.mk' 7 2) (boundedMethod RK.CtlParams.default fun _ _ => 0).co bounded
      (fun _ => num (1 / 2)) (num 0) (num 1) = .ok o' ∧
    (o'.k.length = 7 ∧ o'.x2 = [fun _ => nan, fun _ => nan]) := by
  obtain ⟨o, h1, h2⟩ := Verif.Res.exists_of_test (r := RK.compute (RK.Output.mk' 7 2)
      (boundedMethod RK.CtlParams.default fun _ _ => 0).co bounded (fun _ => num (1 / 2)) (num 0) (num 1))
    (p := fun o' => decide (o'.k.length = 7 ∧ o'.x2 = [fun _ => nan, fun _ => nan])) (by decide +kernel)
  exact ⟨o, h1, of_decide_eq_true h2⟩

/-- DOPRI45 goes from `1/2` with step size 1 although the solution leaves the domain at time `1/2`: whatever the
tolerance, the first step and all later ones are accepted at the first attempt, time goes on to any value, and
the state is not a number. -/
theorem C123_false (c : RK.CtlParams ℚ) (pw : ℚ → ℚ → ℚ) (N : Nat) :
    ∃ s', steps (boundedMethod c pw) (N + 1) boundedStart = some s' ∧ s'.x 0 = nan ∧ s'.t = num ((N : ℚ) + 1) := by
  have hm := boundedMethod_plain c pw
  obtain ⟨o', e, hk, hx⟩ := bounded_kernel
  have hu : boundedStart.stepInUse = some (num 1) := rfl
  obtain ⟨s1, b1, b2, b3, b4, b5, b6⟩ := C123_lost hm (s := boundedStart) hu (o' := o') e hx (fun i => by rfl)
  have hk1 : s1.out.k.length = 7 := by rw [b5, hk]
  obtain ⟨s2, c1, c2, c3, -⟩ := C123_forever hm N (hs := 1) (t := 1) (s := s1)
    (.inr ⟨hk1, b6, by rw [b4]; simp⟩)
    (by
      unfold RK.FixedSt.stepInUse
      rw [if_neg (by rw [List.isEmpty_iff]; intro h; rw [h] at hk1; simp at hk1)]
      exact b4)
    (by rw [b3]; simp [boundedStart]) (by rw [b2]; intro i; rfl)
  refine ⟨s2, ?_, c2 0, by rw [c3]; congr 1; ring⟩
  unfold steps RK.FixedSt.doStepEmb
  rw [b1]
  exact c1

/-- Far from the boundary, the conditions of `C123_partial` are met and the step goes to numbers. -/
example : ∃ o', RK.compute (RK.Output.mk' 7 2) (boundedMethod RK.CtlParams.default fun _ _ => 0).co bounded
      (fun _ => num 10) (num 0) (num 1) = .ok o' ∧ o'.x2 = [fun _ => num 9, fun _ => num 9] := by
  obtain ⟨o, h1, h2⟩ := Verif.Res.exists_of_test (r := RK.compute (RK.Output.mk' 7 2)
      (boundedMethod RK.CtlParams.default fun _ _ => 0).co bounded (fun _ => num 10) (num 0) (num 1))
    (p := fun o' => decide (o'.x2 = [fun _ => num 9, fun _ => num 9])) (by decide +kernel)
  exact ⟨o, h1, of_decide_eq_true h2⟩

end Verif.Special
