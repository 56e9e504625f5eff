import Verif.Special.StepProps
import Verif.Special.EventLemmas
import Verif.Driver.Solvers
import Mathlib.Algebra.Order.Archimedean.Basic

/-! # Runs when values are not numbers (C141) -/

set_option linter.unusedSectionVars false
set_option linter.unusedSimpArgs false

namespace Verif.Special

open Fl Verif.Res Verif.Driver

/-! ### The loop, whatever the solver -/

section
variable {K V S : Type} [Field K] [LinearOrder K] [IsStrictOrderedRing K]

theorem runLoop_last (sv : Solver (Fl K) V S) (e : Fl K) (fuel : Nat) (s s' : S) (ns : List (Note (Fl K) V))
    (h : runLoop sv e fuel s = some (ns, .ok s')) : ¬ sv.time s' < e := by
  induction fuel generalizing s ns with
  | zero => cases h
  | succ fuel ih =>
    unfold runLoop at h
    rcases hd : sv.doStep s with ⟨n1, r⟩
    rw [hd] at h
    cases r with
    | error e => simp at h
    | ok s1 =>
      simp only at h
      split at h
      · obtain ⟨⟨n2, r2⟩, h2, h3⟩ := Option.map_eq_some_iff.1 h
        simp only [Prod.mk.injEq] at h3
        obtain ⟨-, rfl⟩ := h3
        exact ih _ _ h2
      · rename_i hlt
        simp only [Option.some.injEq, Prod.mk.injEq, Except.ok.injEq] at h
        rw [← h.2]
        exact hlt

/-- A property of states and one of notes that every step keeps -/
theorem runLoop_keeps (sv : Solver (Fl K) V S) (I : S → Prop) (P : Note (Fl K) V → Prop)
    (hI : ∀ s, I s → (∀ n ∈ (sv.doStep s).1, P n) ∧ ∀ s', (sv.doStep s).2 = .ok s' → I s')
    (e : Fl K) (fuel : Nat) (s : S) (hs : I s) (ns : List (Note (Fl K) V)) (r : Res S)
    (h : runLoop sv e fuel s = some (ns, r)) : (∀ n ∈ ns, P n) ∧ ∀ s', r = .ok s' → I s' := by
  induction fuel generalizing s ns with
  | zero => cases h
  | succ fuel ih =>
    unfold runLoop at h
    have hst := hI s hs
    rcases hd : sv.doStep s with ⟨n1, r1⟩
    rw [hd] at h hst
    simp only at hst
    cases r1 with
    | error e =>
      simp only [Option.some.injEq, Prod.mk.injEq] at h
      obtain ⟨rfl, rfl⟩ := h
      exact ⟨hst.1, fun s' h => by cases h⟩
    | ok s1 =>
      simp only at h
      split at h
      · obtain ⟨⟨n2, r2⟩, h2, h3⟩ := Option.map_eq_some_iff.1 h
        simp only [Prod.mk.injEq] at h3
        obtain ⟨rfl, rfl⟩ := h3
        obtain ⟨k1, k2⟩ := ih s1 (hst.2 s1 rfl) n2 h2
        refine ⟨fun n hn => ?_, k2⟩
        rcases List.mem_append.1 hn with hn | hn
        · exact hst.1 n hn
        · exact k1 n hn
      · simp only [Option.some.injEq, Prod.mk.injEq] at h
        obtain ⟨rfl, rfl⟩ := h
        exact ⟨hst.1, fun s' h => hst.2 s' (by rw [← h])⟩

theorem solveOde_loop {sv : Solver (Fl K) V S} {c : Outputs} {d : Fl K} {fuel : Nat} {s : S} {evs : List (Ev (Fl K) V)}
    {r : Res S} (hr : sv.hasRhs s = true) {l : List Slot} (hc : initOutput c = (l, .ok ()))
    (h : solveOde sv c d fuel s = some (evs, r)) :
    ∃ ns, runLoop sv (sv.time s + d) fuel s = some (ns, r) ∧ ∀ n, Ev.note n ∈ evs ↔ n ∈ ns := by
  unfold solveOde at h
  rw [if_pos hr, hc] at h
  simp only at h
  rcases hl : runLoop sv (sv.time s + d) fuel s with _ | ⟨ns, _ | s1⟩
  · rw [hl] at h; cases h
  all_goals
    rw [hl] at h
    simp only [Option.some.injEq, Prod.mk.injEq] at h
    obtain ⟨rfl, rfl⟩ := h
    exact ⟨ns, rfl, fun n => by simp⟩

theorem solveOde_ok_output {sv : Solver (Fl K) V S} {c : Outputs} {d : Fl K} {fuel : Nat} {s s' : S}
    {evs : List (Ev (Fl K) V)} (h : solveOde sv c d fuel s = some (evs, .ok s')) :
    sv.hasRhs s = true ∧ ∃ l, initOutput c = (l, .ok ()) := by
  unfold solveOde at h
  split at h
  · rename_i hr
    rcases hi : initOutput c with ⟨l, e | ⟨⟩⟩
    · rw [hi] at h; simp at h
    · exact ⟨hr, l, rfl⟩
  · simp at h

/-- C141: a run that returns and shows a number has come to the end of the interval, and the duration is not infinite. -/
theorem C141_returned (sv : Solver (Fl K) V S) (c : Outputs) (d : Fl K) (fuel : Nat) (s s' : S) (evs : List (Ev (Fl K) V))
    (h : solveOde sv c d fuel s = some (evs, .ok s')) (a b : K) (ha : sv.time s = num a) (hb : sv.time s' = num b) :
    d ≠ inf false ∧ ∀ d', d = num d' → a + d' ≤ b := by
  obtain ⟨hr, l, hc⟩ := solveOde_ok_output h
  obtain ⟨ns, hl, -⟩ := solveOde_loop hr hc h
  have := runLoop_last sv _ fuel s s' ns hl
  rw [ha, hb] at this
  constructor
  · rintro rfl
    simp at this
  · rintro d' rfl
    simpa using this

/-- C141: if the duration is not a number, the run is one step. -/
theorem C141_duration (sv : Solver (Fl K) V S) (c : Outputs) (l : List Slot) (hc : initOutput c = (l, .ok ())) (s : S)
    (hr : sv.hasRhs s = true) (fuel : Nat) :
    solveOde sv c nan (fuel + 1) s = some (l.map .started ++ (sv.doStep s).1.map .note ++
      (match (sv.doStep s).2 with
      | .ok _ => l.map .finished
      | .error _ => []), (sv.doStep s).2) := by
  unfold solveOde
  rw [if_pos hr, hc]
  simp only [add_nan]
  unfold runLoop
  rcases sv.doStep s with ⟨n1, e | s1⟩
  · simp
  · simp

end

/-! ### Solvers with constant step size -/

section
variable {R W E : Type} [Zero R] [Add R] [Mul R] [DecidableEq R] [Zero W] [Add W] [SMul R W]

/-- A method with no event controller and the right numbers of coefficients -/
structure Simple (m : RK.Method R W E) : Prop where
  ec : m.ec = none
  sizes : m.co.Sizes (m.co.c.length + 1) 1

/-- The buffers are not allocated, or are allocated. -/
def Buffers (m : RK.Method R W E) (s : RK.FixedSt R W E) : Prop :=
  s.out.k = [] ∨ (s.out.k.length = m.co.c.length + 1 ∧ s.out.x2.length = 1)

/-- A step returns and advances the time by the step size, whatever the right-hand side gives. -/
theorem simple_step {m : RK.Method R W E} (hm : Simple m) {s : RK.FixedSt R W E} (hb : Buffers m s) {h : R}
    (hh : s.stepInUse = some h) :
    ∃ s', s.doStep m = .ok s' ∧ s'.t = s.t + h ∧ s'.stepInUse = some h ∧ Buffers m s' := by
  unfold RK.FixedSt.doStep
  obtain ⟨si, hsi⟩ : ∃ si, RK.FixedSt.initStep m { s with log := .pre s.h :: s.log } = si := ⟨_, rfl⟩
  have hi' : si.t = s.t ∧ si.h = some h ∧ si.out.k.length = m.co.c.length + 1 ∧ si.out.x2.length = 1 := by
    unfold RK.FixedSt.initStep at hsi
    unfold RK.FixedSt.stepInUse at hh
    rcases hb with hb | ⟨h1, h2⟩
    · rw [if_pos (by simp [hb])] at hsi hh
      subst hsi
      simpa [RK.Output.mk'] using hh
    · have hne : ¬ (s.out.k.isEmpty = true) := by
        rw [List.isEmpty_iff]; intro h; rw [h] at h1; simp at h1
      rw [if_neg hne] at hsi hh
      subst hsi
      exact ⟨rfl, hh, h1, h2⟩
  obtain ⟨i1, i2, i3, i4⟩ := hi'
  simp only [hsi]
  unfold RK.ecStart RK.ecEnd
  rw [hm.ec, i2]
  simp only [bind_ok, RK.readH]
  obtain ⟨o', e, k1, k2, -⟩ := compute_inv (fun _ => True) (fun _ _ _ => trivial) si.out m.co m.rhs si.x si.t h
    (by rw [i3, i4]; exact hm.sizes) (.inr fun _ => trivial) trivial
  rw [e]
  simp only [bind_ok]
  rw [i4] at k2
  obtain ⟨x, hx⟩ : ∃ x, o'.x2 = [x] := by
    match h : o'.x2, k2 with
    | [a], _ => exact ⟨a, rfl⟩
  rw [hx]
  simp only [raw, List.getElem?_cons_zero, bind_ok, rawSet, List.length_cons, List.length_nil, Nat.zero_lt_succ, if_true]
  refine ⟨_, rfl, by rw [i1], ?_, .inr ⟨by rw [k1, i3], by simp⟩⟩
  unfold RK.FixedSt.stepInUse
  rw [if_neg (by rw [List.isEmpty_iff]; intro h; simp only at h; rw [h] at k1; simp at k1; omega)]

end

section
variable {K E : Type} [Field K] [LinearOrder K] [IsStrictOrderedRing K] {W : Type} [Zero W] [Add W] [SMul (Fl K) W]

theorem simple_loop {m : RK.Method (Fl K) W E} (hm : Simple m) (h b : K) (N : Nat) (hN : 1 ≤ N) {s : RK.FixedSt (Fl K) W E}
    (hb : Buffers m s) (hh : s.stepInUse = some (num h)) (a : K) (ht : s.t = num a) (hd : b ≤ a + N * h)
    (hlt : ∀ j : Nat, 1 ≤ j → j < N → a + j * h < b) (fuel : Nat) (hf : N ≤ fuel) :
    ∃ ns s', runLoop (erk m) (num b) fuel s = some (ns, .ok s') ∧ ns.length = N ∧ s'.t = num (a + N * h) := by
  induction N generalizing s a fuel with
  | zero => omega
  | succ N ih =>
    obtain ⟨fuel, rfl⟩ : ∃ f, fuel = f + 1 := ⟨fuel - 1, by omega⟩
    obtain ⟨s1, h1, h2, h3, h4⟩ := simple_step hm hb hh
    have hlog : (erk m).doStep s = (erkNotes s1, .ok s1) := by
      simp only [erk, h1]
    have hlen : (erkNotes s1).length = 1 := by
      obtain ⟨k, tr, l, hl⟩ := erk_log m s s1 h1
      simp [erkNotes, hl]
    rw [ht, num_add] at h2
    unfold runLoop
    rw [hlog]
    simp only
    by_cases hN0 : N = 0
    · subst hN0
      rw [if_neg (by change ¬ s1.t < _; rw [h2, num_lt]; push_cast at hd; linarith)]
      exact ⟨_, s1, rfl, hlen, by rw [h2]; push_cast; ring_nf⟩
    · have := hlt 1 le_rfl (by omega)
      rw [if_pos (by change s1.t < _; rw [h2, num_lt]; push_cast at this; linarith)]
      obtain ⟨ns, s', e1, e2, e3⟩ := ih (by omega) h4 h3 (a + h) h2 (by push_cast at hd; linarith) (fun j hj1 hj2 => by
        have := hlt (j + 1) (by omega) (by omega)
        push_cast at this
        linarith) fuel (by omega)
      rw [e1]
      exact ⟨_, s', rfl, by rw [List.length_append, hlen, e2]; omega, by rw [e3]; push_cast; ring_nf⟩

/-- C141: a run with a constant positive step size and no event controller ends at the first time on the grid that is not
before the end, after as many steps, whatever the right-hand side gives. -/
theorem C141_fixed [Archimedean K] {m : RK.Method (Fl K) W E} (hm : Simple m) {s : RK.FixedSt (Fl K) W E} (hb : Buffers m s)
    (a h d : K) (h0 : 0 < h) (hh : s.stepInUse = some (num h)) (ht : s.t = num a) (c : Outputs) (l : List Slot)
    (hc : initOutput c = (l, .ok ())) :
    ∃ N : Nat, 1 ≤ N ∧ d ≤ N * h ∧ (∀ j : Nat, 1 ≤ j → j < N → j * h < d) ∧ ∀ fuel, N ≤ fuel →
      ∃ (ns : List (Note (Fl K) W)) (s' : RK.FixedSt (Fl K) W E), ns.length = N ∧ s'.t = num (a + N * h) ∧
        solveOde (erk m) c (num d) fuel s = some (l.map .started ++ ns.map .note ++ l.map .finished, .ok s') := by
  classical
  have hex : ∃ N : Nat, 1 ≤ N ∧ d ≤ N * h := by
    obtain ⟨N, hN⟩ := exists_nat_ge (d / h)
    refine ⟨N + 1, by omega, ?_⟩
    rw [div_le_iff₀ h0] at hN
    push_cast
    linarith
  refine ⟨Nat.find hex, (Nat.find_spec hex).1, (Nat.find_spec hex).2, fun j hj1 hj2 => ?_, fun fuel hf => ?_⟩
  · have := Nat.find_min hex hj2
    simp only [not_and, not_le] at this
    exact this hj1
  · obtain ⟨ns, s', e1, e2, e3⟩ := simple_loop hm h (a + d) (Nat.find hex) (Nat.find_spec hex).1 hb hh a ht
      (by linarith [(Nat.find_spec hex).2]) (fun j hj1 hj2 => by
        have := Nat.find_min hex hj2
        simp only [not_and, not_le] at this
        linarith [this hj1]) fuel hf
    refine ⟨ns, s', e2, e3, ?_⟩
    unfold solveOde
    rw [if_pos (show (erk m).hasRhs s = true from rfl), hc]
    have : (erk m).time s + num d = num (a + d) := by
      change s.t + _ = _
      rw [ht, num_add]
    simp only [this, e1]

end

/-! ### Solvers with error control -/

section
variable {K E : Type} [Field K] [LinearOrder K] [IsStrictOrderedRing K] {n : Nat}

/-- The controller answers a number, if asked about a step of positive size and a norm that is not not-a-number. -/
theorem control_size (c : RK.CtlParams K) (pw : K → K → K) (h : K) (h0 : 0 < h) (err : Fl K) (he : err ≠ nan) (order : Nat) :
    ∃ h', (control c pw (num h) err order).newStepSize = num h' ∧
      ((control c pw (num h) err order).changeStepSize = false → h' = h) := by
  have ho' : (order : K) + 1 ≠ 0 := by positivity
  unfold control
  by_cases hz : err = 0
  · rw [if_pos hz]; exact ⟨h, rfl, fun _ => rfl⟩
  rw [if_neg hz]
  obtain ⟨p, hp⟩ : ∃ p, Fl.pow pw (num c.tolerance / err) (1 / ((order : Fl K) + 1)) = num p := by
    rw [nat_def, one_def, num_add, num_div ho']
    cases err with
    | nan => exact absurd rfl he
    | inf s => exact ⟨_, rfl⟩
    | num r =>
      rw [num_div (by intro h; exact hz (by rw [h, zero_def]))]
      exact ⟨_, rfl⟩
  simp only [hp, num_mul, num_div h0.ne']
  have pick : ∀ (q : Prop) [Decidable q] (x y : K), ∃ g, (if q then num x else num y) = num g := fun q _ x y => by
    by_cases hq : q
    · exact ⟨x, if_pos hq⟩
    · exact ⟨y, if_neg hq⟩
  have either : ∀ (q : Prop) [Decidable q] (r1 r2 : RK.CtlResult (Fl K)),
      (∃ h', r1.newStepSize = num h' ∧ (r1.changeStepSize = false → h' = h)) →
      (∃ h', r2.newStepSize = num h' ∧ (r2.changeStepSize = false → h' = h)) →
      ∃ h', (if q then r1 else r2).newStepSize = num h' ∧ ((if q then r1 else r2).changeStepSize = false → h' = h) := by
    intro q _ r1 r2 k1 k2
    by_cases hq : q
    · rw [if_pos hq]; exact k1
    · rw [if_neg hq]; exact k2
  have keep : ∃ h', (⟨num h, true, false⟩ : RK.CtlResult (Fl K)).newStepSize = num h' ∧
      ((⟨num h, true, false⟩ : RK.CtlResult (Fl K)).changeStepSize = false → h' = h) := ⟨h, rfl, fun _ => rfl⟩
  obtain ⟨g1, hg1⟩ := pick ((0 : Fl K) < num c.maxThreshold ∧ num c.maxThreshold < num (p * c.insurance * h))
    (c.maxThreshold / h) (p * c.insurance)
  obtain ⟨g2, hg2⟩ := pick ((0 : Fl K) < num c.incMax ∧ num c.incMax < num g1) c.incMax g1
  obtain ⟨g3, hg3⟩ := pick ((0 : Fl K) < num c.decMax ∧ num (p * c.insurance) < num c.decMax) c.decMax (p * c.insurance)
  rw [hg1, hg2, hg3]
  exact either _ _ _ (either _ _ _ keep (either _ _ _ keep ⟨_, rfl, fun h => by cases h⟩))
    (either _ _ _ keep ⟨_, rfl, fun h => by cases h⟩)

/-- Time and step sizes are numbers, the step sizes positive. -/
def Sound (s : RK.FixedSt (Fl K) (V K n) E) : Prop :=
  (∃ a, s.t = num a) ∧ (∃ h, s.hInit = num h ∧ 0 < h) ∧ ∃ h, s.stepInUse = some (num h) ∧ 0 < h

theorem attempt_sound {c : RK.CtlParams K} {pw : K → K → K} {m : RK.EmbMethod (Fl K) (V K n) E} (hm : Plain c pw m)
    {hm0 : K} (hmin : m.hMin = num hm0) (h0 : 0 ≤ hm0) {s : RK.FixedSt (Fl K) (V K n) E} (hs : Sound s)
    {A : RK.Attempt (RK.FixedSt (Fl K) (V K n) E)} (hA : s.attempt m = .ok A) (hth : ∀ msg s', A ≠ .thrown msg s') :
    Sound A.state ∧ (∃ h, s.stepInUse = some (num h) ∧ 0 < h ∧ ∃ acc ch tr err l, A.state.log = .post (num h) acc ch tr err :: l ∧
      A.state.t = if acc then s.t + num h else s.t) := by
  obtain ⟨⟨a, ha⟩, ⟨hI, hI1, hI2⟩, h, hh, hpos⟩ := hs
  obtain ⟨h', hi, lo, o', a1, a2, a3, a4, a5, a6, a7, a8, e, tr, a9, a10, a11, a12, a13, a14, a15⟩ := RK.attempt_outcome hA
  rw [hh] at a1
  obtain rfl : num h = h' := Option.some.inj a1
  have hv : m.verdict (num h) hi lo = control c pw (num h) (infNorm (hi - lo)) m.lowOrder := by
    unfold RK.EmbMethod.verdict
    rw [hm.check, hm.norm, hm.control]
    simp
  obtain ⟨g, hg1, hg2⟩ := control_size c pw h hpos (infNorm (hi - lo)) (infNorm_spec (hi - lo)).1 m.lowOrder
  rw [← hv] at hg1 hg2
  have htr : tr = RK.Trunc.none := by
    cases hacc : (m.verdict (num h) hi lo).acceptStep with
    | false => exact a13 hacc
    | true =>
      have := a11 hacc
      unfold RK.ecEnd at this
      rw [hm.ec] at this
      simp only [Except.ok.injEq, Prod.mk.injEq] at this
      exact this.2.2.2.symm
  have hlast : ((m.verdict (num h) hi lo).changeStepSize = true → ¬ (m.verdict (num h) hi lo).newStepSize ≤ m.hMin) ∧
      ∃ acc ch tr' err l, A.state.log = .post (num h) acc ch tr' err :: l ∧ acc = (m.verdict (num h) hi lo).acceptStep := by
    cases A with
    | thrown msg s' => exact absurd rfl (hth msg s')
    | accepted s' => exact ⟨a15.1, _, _, _, _, _, a15.2, rfl⟩
    | rejected s' => exact ⟨a15.1, _, _, _, _, _, a15.2, rfl⟩
  have hA' : A.state.h = some (num ((if (m.verdict (num h) hi lo).changeStepSize then g else h))) := by
    rcases a12 with a12 | ⟨hb, -⟩
    · rw [a12]
      unfold RK.CtlResult.step
      split
      · rw [hg1]
      · rfl
    · rw [htr] at hb
      cases hb
  have hp' : 0 < (if (m.verdict (num h) hi lo).changeStepSize then g else h) := by
    split
    · rename_i hc
      have := hlast.1 hc
      rw [hg1, hmin, num_le, not_le] at this
      linarith
    · exact hpos
  have htime : A.state.t = if (m.verdict (num h) hi lo).acceptStep then s.t + num h else s.t := by
    cases hacc : (m.verdict (num h) hi lo).acceptStep with
    | false => simpa using (a8 hacc).1
    | true =>
      have := a11 hacc
      unfold RK.ecEnd at this
      rw [hm.ec] at this
      simp only [Except.ok.injEq, Prod.mk.injEq] at this
      rw [← this.2.2.1]
      simp
  refine ⟨⟨?_, ⟨hI, by rw [a7, hI1], hI2⟩, ?_⟩, h, hh, hpos, ?_⟩
  · rw [htime, ha]
    split
    · exact ⟨_, rfl⟩
    · exact ⟨_, rfl⟩
  · unfold RK.FixedSt.stepInUse
    split
    · exact ⟨hI, by rw [a7, hI1], hI2⟩
    · exact ⟨_, hA', hp'⟩
  · obtain ⟨acc, ch, tr', err, l, e1, rfl⟩ := hlast.2
    exact ⟨_, ch, tr', err, l, e1, htime⟩

/-- The time, the step size and the state of affairs a post-observer is shown -/
def Shown (n' : Note (Fl K) (V K n)) : Prop :=
  ∃ t h, n'.time = num t ∧ n'.h = num h ∧ 0 < h

theorem passes_sound {c : RK.CtlParams K} {pw : K → K → K} {m : RK.EmbMethod (Fl K) (V K n) E} (hm : Plain c pw m)
    {hm0 : K} (hmin : m.hMin = num hm0) (h0 : 0 ≤ hm0) (fuel : Nat) (s : RK.FixedSt (Fl K) (V K n) E) (hs : Sound s) :
    (∀ n ∈ ((emb m fuel).doStep s).1, Shown n) ∧ ∀ s', ((emb m fuel).doStep s).2 = .ok s' → Sound s' := by
  change (∀ n ∈ (passes (·.attempt m) (fun s => noteOf s.t s.x s.log) fuel s).1, Shown n) ∧
    ∀ s', (passes (·.attempt m) (fun s => noteOf s.t s.x s.log) fuel s).2 = .ok s' → Sound s'
  induction fuel generalizing s with
  | zero => exact ⟨fun n hn => (by cases hn), fun s' h => by cases h⟩
  | succ fuel ih =>
    unfold passes
    rcases hA : s.attempt m with e | A
    · exact ⟨fun n hn => (by cases hn), fun s' h => by cases h⟩
    have shown : ∀ (s1 : RK.FixedSt (Fl K) (V K n) E), Sound s1 → (∃ h, s.stepInUse = some (num h) ∧ 0 < h ∧
        ∃ acc ch tr err l, s1.log = .post (num h) acc ch tr err :: l ∧ s1.t = if acc then s.t + num h else s.t) →
        ∀ n ∈ noteOf s1.t s1.x s1.log, Shown n := by
      rintro s1 ⟨⟨a, ha⟩, -, -⟩ ⟨h, -, hp, acc, ch, tr, err, l, hl, -⟩ n hn
      rw [hl] at hn
      simp only [noteOf, List.mem_singleton] at hn
      subst hn
      exact ⟨a, h, ha, rfl, hp⟩
    cases A with
    | thrown msg s1 => exact ⟨fun n hn => (by cases hn), fun s' h => by cases h⟩
    | accepted s1 =>
      obtain ⟨k1, k2⟩ := attempt_sound hm hmin h0 hs hA (fun _ _ h => by cases h)
      refine ⟨shown s1 k1 k2, fun s' h => ?_⟩
      obtain rfl : s1 = s' := by simpa using h
      exact k1
    | rejected s1 =>
      obtain ⟨k1, k2⟩ := attempt_sound hm hmin h0 hs hA (fun _ _ h => by cases h)
      obtain ⟨j1, j2⟩ := ih s1 k1
      refine ⟨fun n hn => ?_, j2⟩
      rcases List.mem_append.1 hn with hn | hn
      · exact shown s1 k1 k2 n hn
      · exact j1 n hn

/-- C141: with error control and no event controller all times and step sizes shown to observers are numbers, and a run that
returns has come to the end of the interval; whatever the right-hand side gives. -/
theorem C141_adaptive {c : RK.CtlParams K} {pw : K → K → K} {m : RK.EmbMethod (Fl K) (V K n) E} (hm : Plain c pw m)
    {hm0 : K} (hmin : m.hMin = num hm0) (h0 : 0 ≤ hm0) (p fuel : Nat) (s : RK.FixedSt (Fl K) (V K n) E) (a h1 h2 d : K)
    (ht : s.t = num a) (hi : s.hInit = num h1) (hp1 : 0 < h1) (hh : s.stepInUse = some (num h2)) (hp2 : 0 < h2)
    (co : Outputs) (l : List Slot) (hc : initOutput co = (l, .ok ())) (evs : List (Ev (Fl K) (V K n)))
    (r : Res (RK.FixedSt (Fl K) (V K n) E)) (h : solveOde (emb m p) co (num d) fuel s = some (evs, r)) :
    (∀ n, .note n ∈ evs → ∃ t h, n.time = num t ∧ n.h = num h ∧ 0 < h) ∧
    ∀ s', r = .ok s' → ∃ b, s'.t = num b ∧ a + d ≤ b := by
  obtain ⟨ns, hl, hn⟩ := solveOde_loop rfl hc h
  obtain ⟨k1, k2⟩ := runLoop_keeps (emb m p) Sound Shown (passes_sound hm hmin h0 p) _ fuel s
    ⟨⟨a, ht⟩, ⟨h1, hi, hp1⟩, h2, hh, hp2⟩ ns r hl
  refine ⟨fun n hn' => k1 n ((hn n).1 hn'), fun s' hr => ?_⟩
  obtain ⟨⟨b, hb⟩, -⟩ := k2 s' hr
  subst hr
  exact ⟨b, hb, (C141_returned (emb m p) co (num d) fuel s s' evs h a b ht hb).2 d rfl⟩

end

/-! ### Examples -/

/-- Explicit Euler with step 1, `x' = nan` after time 2 -/
def lostEuler : RK.Method (Fl ℚ) (Fl ℚ) Unit where
  co := ⟨[], [num 1], [], -1⟩
  rhs t _ := if num 2 ≤ t then nan else num 1
  ec := none

/-- The hypotheses of `C141_fixed` hold of it; it goes on to time 5 and its state is lost. -/
example : Simple lostEuler ∧
    (match solveOde (erk lostEuler) ⟨none, none, none⟩ (num (9 / 2)) 10 ⟨num 0, num 0, none, RK.Output.mkEmpty, num 1, (), []⟩ with
      | some (evs, .ok s') => decide (evs.length = 5 ∧ s'.t = num 5 ∧ s'.x = nan)
      | _ => false) = true :=
  ⟨⟨rfl, ⟨by decide, by decide, by decide, by decide⟩⟩, by decide +kernel⟩

/-- The hypotheses of `C141_adaptive` hold of DOPRI45 at the boundary of the domain of the right-hand side; the run returns with a
state that is not a number. -/
example : Plain RK.CtlParams.default (fun _ _ => 0) (boundedMethod RK.CtlParams.default fun _ _ => 0) ∧
    (boundedMethod RK.CtlParams.default fun _ _ => 0).hMin = num (1 / 10000000000) ∧ Sound boundedStart ∧
    (match solveOde (emb (boundedMethod RK.CtlParams.default fun _ _ => 0) 1) ⟨none, none, none⟩ (num (3 / 2)) 10 boundedStart with
      | some (evs, .ok s') => decide (evs.length = 2 ∧ s'.t = num 2 ∧ s'.x 0 = nan)
      | _ => false) = true :=
  ⟨boundedMethod_plain _ _, rfl, ⟨⟨0, rfl⟩, ⟨1, rfl, by norm_num⟩, 1, rfl, by norm_num⟩, by decide +kernel⟩

/-- `x' = 1` with one function watched, equal to -1 -/
def staysBelow (flags : Nat) : Event.EvRhs (Fl ℚ) (Fl ℚ) Unit where
  zeroFuncCount _ := 1
  zeroFuncFlags _ := [flags]
  zeroFunctions _ _ _ := [num (-1)]
  switchPhaseState _ _ _ x := ((), x)
  truncateStep _ t x := (false, t, x)

/-- Explicit Euler with the event controller -/
def watching (flags : Nat) : RK.Method (Fl ℚ) (Fl ℚ) (Event.Ctl (Fl ℚ) × Unit) where
  co := ⟨[], [num 1], [], -1⟩
  rhs _ _ := num 1
  ec := some (Event.controller (staysBelow flags))

/-- The solver at time 0 with step size 1 -/
def watchingStart : RK.FixedSt (Fl ℚ) (Fl ℚ) (Event.Ctl (Fl ℚ) × Unit) :=
  ⟨num 0, num 0, none, RK.Output.mkEmpty, num 1, (Event.Ctl.init, ()), []⟩

/-- C141 is false of the code if there is an event controller: the function -1 is watched for changes from plus to minus (1) and
recomputed after events (4), all values the model gives are numbers, and a run of duration 10 with step size 1 returns after two
steps at a time that is not a number. -/
theorem C141_false : ¬ ∀ (fuel : Nat) (evs : List (Ev (Fl ℚ) (Fl ℚ))) (s' : RK.FixedSt (Fl ℚ) (Fl ℚ) (Event.Ctl (Fl ℚ) × Unit)),
    solveOde (erk (watching 5)) ⟨none, none, none⟩ (num 10) fuel watchingStart = some (evs, .ok s') → ∃ b, s'.t = num b := by
  intro h
  have : (match solveOde (erk (watching 5)) ⟨none, none, none⟩ (num 10) 2 watchingStart with
      | some (_, .ok s') => decide (s'.t = nan)
      | _ => false) = true := by decide +kernel
  rcases hr : solveOde (erk (watching 5)) ⟨none, none, none⟩ (num 10) 2 watchingStart with _ | ⟨evs, e | s'⟩
  · rw [hr] at this; cases this
  · rw [hr] at this; cases this
  · rw [hr] at this
    obtain ⟨b, hb⟩ := h 2 evs s' hr
    simp only [decide_eq_true_eq] at this
    rw [hb] at this
    cases this

/-- If the function is not recomputed after events (flags 1), observers are shown the time minus infinity and the second step
throws. -/
theorem C141_thrown_false : ¬ ∀ (fuel : Nat) (evs : List (Ev (Fl ℚ) (Fl ℚ))) (r : Res (RK.FixedSt (Fl ℚ) (Fl ℚ) (Event.Ctl (Fl ℚ) × Unit))),
    solveOde (erk (watching 1)) ⟨none, none, none⟩ (num 10) fuel watchingStart = some (evs, r) →
      (∀ n, .note n ∈ evs → ∃ t, n.time = num t) ∨ ∃ s', r = .ok s' := by
  intro h
  have : (match solveOde (erk (watching 1)) ⟨none, none, none⟩ (num 10) 2 watchingStart with
      | some ([.note n], .error _) => decide (n.time = inf true)
      | _ => false) = true := by decide +kernel
  rcases hr : solveOde (erk (watching 1)) ⟨none, none, none⟩ (num 10) 2 watchingStart with _ | ⟨evs, e | s'⟩
  · rw [hr] at this; cases this
  · rw [hr] at this
    split at this
    · rename_i n e' heq
      simp only [Option.some.injEq, Prod.mk.injEq] at heq
      obtain ⟨rfl, -⟩ := heq
      rcases h 2 _ _ hr with h | ⟨s', h⟩
      · obtain ⟨t, ht⟩ := h n (by simp)
        simp only [decide_eq_true_eq] at this
        rw [ht] at this
        cases this
      · cases h
    · cases this
  · rw [hr] at this
    split at this
    · rename_i heq
      cases heq
    · cases this

end Verif.Special
