import Verif.Driver.Solvers
import Verif.RK.AdaptiveProps
import Verif.Ros.StepProps

/-! # What the post-observers see during `solveOde` -/

set_option linter.unusedSectionVars false

namespace Verif.Driver

open Verif.Res

section
variable {K V S : Type} [Add K] [LinearOrder K]

/-- The calls of post-observers among the events of a run -/
def samples (evs : List (Ev K V)) : List (Note K V) := evs.filterMap (fun | .note n => some n | _ => none)

/-- The samples of accepted steps: what an output option writes that does not leave anything out -/
def accepted (evs : List (Ev K V)) : List (Note K V) := (samples evs).filter (·.accepted)

/-- In a step that returns, the post-observers are told of rejected attempts, which show the state before the step, and last of
the accepted one, which shows the state after it. -/
def Tells (sv : Solver K V S) : Prop :=
  ∀ s ns s', sv.doStep s = (ns, .ok s') → ∃ rej acc, ns = rej ++ [acc] ∧ acc.accepted = true ∧ acc.time = sv.time s' ∧
    acc.state = sv.state s' ∧ ∀ n ∈ rej, n.accepted = false ∧ n.time = sv.time s ∧ n.state = sv.state s

theorem steps_chain {sv : Solver K V S} {s : S} {l : List (List (Note K V) × S)} (h : Steps sv s l) :
    ∃ st : Nat → S, ∃ ns : Nat → List (Note K V), st 0 = s ∧ st l.length = lastOf s l ∧
      (∀ k < l.length, sv.doStep (st k) = (ns k, .ok (st (k + 1)))) ∧ l = (List.range l.length).map (fun k => (ns k, st (k + 1))) := by
  induction h with
  | nil s => exact ⟨fun _ => s, fun _ => [], rfl, rfl, by simp, rfl⟩
  | @cons s s' n l h hl ih =>
    obtain ⟨st, ns, a1, a2, a3, a4⟩ := ih
    refine ⟨fun k => k.casesOn s st, fun k => k.casesOn n ns, rfl, ?_, ?_, ?_⟩
    · rw [lastOf_cons]
      exact a2
    · intro k hk
      cases k with
      | zero => simpa [a1] using h
      | succ k => exact a3 k (by simpa using hk)
    · rw [List.length_cons, List.range_succ_eq_map, List.map_cons, List.map_map]
      simp only [List.cons.injEq]
      exact ⟨by simp [a1], a4⟩

/-- A run of `solveOde` that returns, as a sequence of calls of `doStep` -/
theorem run_chain (sv : Solver K V S) (c : Outputs) (hc : c.Start) (d : K) (fuel : Nat) (s s' : S)
    (hr : sv.hasRhs s = true) (evs : List (Ev K V)) (h : solveOde sv c d fuel s = some (evs, .ok s')) :
    ∃ N, ∃ st : Nat → S, ∃ ns : Nat → List (Note K V), 1 ≤ N ∧ N ≤ fuel ∧ st 0 = s ∧ st N = s' ∧
      (∀ k < N, sv.doStep (st k) = (ns k, .ok (st (k + 1)))) ∧ (∀ k, 0 < k → k < N → sv.time (st k) < sv.time s + d) ∧
      sv.time s + d ≤ sv.time s' ∧ samples evs = (List.range N).flatMap ns := by
  obtain ⟨l, a1, a2, a3, a4, a5, a6, a7⟩ := (C44_returns sv c hc d fuel s s' hr evs).1 h
  obtain ⟨st, ns, b1, b2, b3, b4⟩ := steps_chain a3
  refine ⟨l.length, st, ns, by cases l <;> simp at a1 ⊢, a2, b1, by rw [b2, a6], b3, ?_, a5, ?_⟩
  · intro k h1 h2
    have hm : (ns (k - 1), st (k - 1 + 1)) ∈ l.dropLast := by
      rw [List.mem_iff_getElem]
      refine ⟨k - 1, by rw [List.length_dropLast]; omega, ?_⟩
      rw [List.getElem_dropLast]
      have e : l[k - 1]? = some (ns (k - 1), st (k - 1 + 1)) := by
        conv_lhs => rw [b4]
        rw [List.getElem?_map, List.getElem?_range (by omega)]
        rfl
      rw [List.getElem?_eq_getElem (by omega)] at e
      exact Option.some.inj e
    have := a4 _ hm
    rwa [Nat.sub_add_cancel h1] at this
  · rw [a7]
    have e1 : ∀ l : List Slot, samples (l.map (.started : Slot → Ev K V)) = [] := by
      intro l
      induction l with
      | nil => rfl
      | cons a l ih => exact ih
    have e2 : ∀ l : List Slot, samples (l.map (.finished : Slot → Ev K V)) = [] := by
      intro l
      induction l with
      | nil => rfl
      | cons a l ih => exact ih
    have e3 : ∀ l : List (Note K V), samples (l.map .note) = l := by
      intro l
      induction l with
      | nil => rfl
      | cons a l ih => exact congrArg (List.cons a) ih
    have e4 : ∀ a b : List (Ev K V), samples (a ++ b) = samples a ++ samples b := fun a b => List.filterMap_append
    rw [e4, e4, e1, e2, e3, List.nil_append, List.append_nil]
    unfold notesOf
    conv_lhs => rw [b4]
    rw [List.map_map, List.flatMap]
    rfl

/-- The samples of a run: those of accepted steps are the states after the calls of `doStep`, in order; all others repeat the state
before. -/
theorem run_samples {sv : Solver K V S} (hT : Tells sv) (c : Outputs) (hc : c.Start) (d : K) (fuel : Nat) (s s' : S)
    (hr : sv.hasRhs s = true) (evs : List (Ev K V)) (h : solveOde sv c d fuel s = some (evs, .ok s')) :
    ∃ N, ∃ st : Nat → S, 1 ≤ N ∧ N ≤ fuel ∧ st 0 = s ∧ st N = s' ∧
      (∀ k < N, ∃ ns, sv.doStep (st k) = (ns, .ok (st (k + 1))) ∧ ∀ n ∈ ns, .note n ∈ evs) ∧
      (∀ k, 0 < k → k < N → sv.time (st k) < sv.time s + d) ∧ sv.time s + d ≤ sv.time s' ∧
      (accepted evs).map (fun n => (n.time, n.state)) =
        (List.range N).map (fun k => (sv.time (st (k + 1)), sv.state (st (k + 1)))) ∧
      ∀ n, .note n ∈ evs → ∃ k ≤ N, n.time = sv.time (st k) ∧ n.state = sv.state (st k) := by
  obtain ⟨N, st, ns, a1, a0, a2, a3, a4, t1, t2, a5⟩ := run_chain sv c hc d fuel s s' hr evs h
  have hm : ∀ n, .note n ∈ evs ↔ n ∈ samples evs := by
    intro n
    unfold samples
    rw [List.mem_filterMap]
    constructor
    · intro hn
      exact ⟨_, hn, rfl⟩
    · rintro ⟨e, he, h'⟩
      cases e with
      | note m => cases h'; exact he
      | started _ => cases h'
      | finished _ => cases h'
  have hm' : ∀ n, .note n ∈ evs ↔ ∃ k < N, n ∈ ns k := by
    intro n
    rw [hm, a5, List.mem_flatMap]
    simp
  refine ⟨N, st, a1, a0, a2, a3, fun k hk => ⟨ns k, a4 k hk, fun n hn => (hm' n).2 ⟨k, hk, hn⟩⟩, t1, t2, ?_, ?_⟩
  · unfold accepted
    rw [a5]
    have : ∀ l : List Nat, (∀ k ∈ l, k < N) → (((l.flatMap ns).filter (·.accepted)).map (fun n => (n.time, n.state))) =
        l.map (fun k => (sv.time (st (k + 1)), sv.state (st (k + 1)))) := by
      intro l
      induction l with
      | nil => intro _; rfl
      | cons k l ih =>
        intro hl
        obtain ⟨rej, acc, c1, c2, c3, c4, c5⟩ := hT _ _ _ (a4 k (hl k (by simp)))
        rw [List.flatMap_cons, List.filter_append, List.map_append, ih (fun i hi => hl i (by simp [hi])), c1,
          List.filter_append]
        have : rej.filter (·.accepted) = [] := by
          rw [List.filter_eq_nil_iff]
          intro n hn
          simp [(c5 n hn).1]
        rw [this]
        simp [c2, c3, c4]
    exact this _ (fun k hk => List.mem_range.1 hk)
  · intro n hn
    obtain ⟨k, hk, hn⟩ := (hm' n).1 hn
    obtain ⟨rej, acc, c1, c2, c3, c4, c5⟩ := hT _ _ _ (a4 k hk)
    rw [c1, List.mem_append, List.mem_singleton] at hn
    rcases hn with hn | rfl
    · exact ⟨k, hk.le, (c5 n hn).2⟩
    · exact ⟨k + 1, hk, c3, c4⟩

/-- A given sequence of steps: `solveOde` returns after the first one that reaches the end time. -/
theorem chain_run {sv : Solver K V S} (c : Outputs) (hc : c.Start) (d : K) (N : Nat) (hN : 1 ≤ N) (st : Nat → S)
    (hr : sv.hasRhs (st 0) = true) (hst : ∀ k < N, ∃ ns, sv.doStep (st k) = (ns, .ok (st (k + 1))))
    (hb : ∀ k, 0 < k → k < N → sv.time (st k) < sv.time (st 0) + d) (he : sv.time (st 0) + d ≤ sv.time (st N)) :
    ∃ evs, solveOde sv c d N (st 0) = some (evs, .ok (st N)) := by
  have steps : ∀ n j, j + n ≤ N → ∃ l, Steps sv (st j) l ∧ l.length = n ∧ lastOf (st j) l = st (j + n) ∧
      ∀ i (hi : i < l.length), (l[i]).2 = st (j + i + 1) := by
    intro n
    induction n with
    | zero => intro j _; exact ⟨[], .nil _, rfl, rfl, by simp⟩
    | succ n ih =>
      intro j hj
      obtain ⟨ns, hs⟩ := hst j (by omega)
      obtain ⟨l, b1, b2, b3, b4⟩ := ih (j + 1) (by omega)
      refine ⟨(ns, st (j + 1)) :: l, .cons hs b1, by simp [b2], ?_, ?_⟩
      · rw [lastOf_cons, b3]; congr 1; omega
      · intro i hi
        cases i with
        | zero => rfl
        | succ i =>
          rw [List.getElem_cons_succ, b4 i (by simpa using hi)]
          congr 1; omega
  obtain ⟨l, b1, b2, b3, b4⟩ := steps N 0 (by omega)
  refine ⟨_, (C44_returns sv c hc d N _ _ hr _).2 ⟨l, by rintro rfl; simp at b2; omega, b2.le, b1, ?_, he, ?_, rfl⟩⟩
  · intro p hp
    obtain ⟨i, hi, rfl⟩ := List.mem_iff_getElem.1 hp
    rw [List.length_dropLast] at hi
    rw [List.getElem_dropLast, b4 i (by omega), Nat.zero_add]
    exact hb _ (by omega) (by omega)
  · rw [b3, Nat.zero_add]

end

section
variable {K V S : Type} [Field K] [LinearOrder K]

/-- Steps of a known size: `solveOde` returns after the first one that reaches the end time. -/
theorem fixed_run {sv : Solver K V S} (c : Outputs) (hc : c.Start) (d t h : K) (N : Nat) (hN : 1 ≤ N) (st : Nat → S)
    [IsStrictOrderedRing K]
    (hr : sv.hasRhs (st 0) = true) (ht : ∀ k ≤ N, sv.time (st k) = t + k * h) (hh : 0 ≤ h)
    (hst : ∀ k < N, ∃ ns, sv.doStep (st k) = (ns, .ok (st (k + 1)))) (hd : d ≤ N * h)
    (hd' : N = 1 ∨ ((N : K) - 1) * h < d) :
    ∃ evs, solveOde sv c d N (st 0) = some (evs, .ok (st N)) := by
  have t0 := ht 0 (by omega)
  simp only [Nat.cast_zero, zero_mul, add_zero] at t0
  refine chain_run c hc d N hN st hr hst (fun k h0 hk => ?_) ?_
  · rw [ht _ hk.le, t0]
    rcases hd' with hd' | hd'
    · omega
    · have h1 : (k : K) ≤ (N : K) - 1 := by
        have h2 : (k : K) ≤ ((N - 1 : Nat) : K) := by exact_mod_cast (show k ≤ N - 1 by omega)
        rwa [Nat.cast_sub hN, Nat.cast_one] at h2
      have := mul_le_mul_of_nonneg_right h1 hh
      linarith
  · rw [ht N le_rfl, t0]; linarith

theorem passes_tells {time : S → K} {state : S → V} {attempt : S → Res (RK.Attempt S)} {note : S → List (Note K V)}
    (ha : ∀ s s', attempt s = .ok (.accepted s') → ∃ n, note s' = [n] ∧ n.accepted = true ∧ n.time = time s' ∧
      n.state = state s')
    (hj : ∀ s s', attempt s = .ok (.rejected s') → time s' = time s ∧ state s' = state s ∧ ∃ n, note s' = [n] ∧
      n.accepted = false ∧ n.time = time s' ∧ n.state = state s') (fuel : Nat) (s : S) (ns : List (Note K V)) (s' : S)
    (h : passes attempt note fuel s = (ns, .ok s')) :
    ∃ rej acc, ns = rej ++ [acc] ∧ acc.accepted = true ∧ acc.time = time s' ∧
      acc.state = state s' ∧ ∀ n ∈ rej, n.accepted = false ∧ n.time = time s ∧ n.state = state s := by
  induction fuel generalizing s ns with
  | zero => cases h
  | succ fuel ih =>
    unfold passes at h
    cases hA : attempt s with
    | error e => rw [hA] at h; cases h
    | ok A =>
      rw [hA] at h
      cases A with
      | thrown m q => cases h
      | accepted q =>
        cases h
        obtain ⟨n, b1, b2, b3, b4⟩ := ha _ _ hA
        exact ⟨[], n, by rw [b1]; rfl, b2, b3, b4, by simp⟩
      | rejected q =>
        simp only [Prod.mk.injEq] at h
        obtain ⟨h1, h2⟩ := h
        obtain ⟨c1, c2, n, b1, b2, b3, b4⟩ := hj _ _ hA
        obtain ⟨rej, acc, d1, d2, d3, d4, d5⟩ := ih q _ (Prod.ext rfl h2)
        refine ⟨n :: rej, acc, by rw [← h1, b1]; exact congrArg (List.cons n) d1, d2, d3, d4, fun m hm => ?_⟩
        rw [List.mem_cons] at hm
        rcases hm with rfl | hm
        · exact ⟨b2, by rw [b3, c1], by rw [b4, c2]⟩
        · rw [← c1, ← c2]; exact d5 m hm

end

/-! ### The solvers of the library -/

theorem erk_tells {K V E : Type} [Zero K] [Add K] [Mul K] [DecidableEq K] [Zero V] [Add V] [SMul K V] (m : RK.Method K V E) : Tells (erk m) := by
  intro s ns s' h
  simp only [erk] at h
  cases hd : s.doStep m with
  | error e => rw [hd] at h; cases h
  | ok q =>
    rw [hd] at h
    cases h
    obtain ⟨k, tr, l, hl⟩ := erk_log m s _ hd
    refine ⟨[], ⟨_, _, k, true, false, tr⟩, ?_, rfl, rfl, rfl, by simp⟩
    simp [erkNotes, hl]
    exact ⟨rfl, rfl⟩

section
variable {K V E S Q D : Type} [Field K] [LinearOrder K]

theorem emb_tells [AddCommGroup V] [Module K V] (m : RK.EmbMethod K V E) (fuel : Nat) : Tells (emb m fuel) := by
  refine fun s ns s' => passes_tells (S := RK.FixedSt K V E) (time := fun s => s.t) (state := fun s => s.x)
    (attempt := fun s => s.attempt m) (note := fun s => noteOf s.t s.x s.log) (fun s s' h => ?_) (fun s s' h => ?_) fuel s ns s'
  · obtain ⟨k, hi, lo, o', -, -, -, -, -, -, -, -, e, tr, -, -, -, -, -, h1, -, h2⟩ := RK.attempt_outcome h
    simp only [RK.Attempt.state] at h2
    exact ⟨_, by rw [h2]; rfl, h1, rfl, rfl⟩
  · obtain ⟨k, hi, lo, o', -, -, -, -, -, -, -, h0, e, tr, -, -, -, -, -, h1, -, h2⟩ := RK.attempt_outcome h
    simp only [RK.Attempt.state] at h2 h0
    exact ⟨(h0 h1).1, (h0 h1).2, _, by rw [h2]; rfl, h1, rfl, rfl⟩

theorem w1_tells (M : Ros.Method K E) : Tells (w1 M) := by
  intro s ns s' h
  simp only [w1] at h
  cases hd : s.doStep1 M with
  | error e => rw [hd] at h; cases h
  | ok q =>
    rw [hd] at h
    cases h
    have hl : ∃ k tr l, s'.log = .post k true false tr 0 :: l := by
      unfold Ros.St.doStep1 at hd
      obtain ⟨_, -, hd⟩ := bind_inv hd
      obtain ⟨_, -, hd⟩ := bind_inv hd
      obtain ⟨_, -, hd⟩ := bind_inv hd
      obtain ⟨_, -, hd⟩ := bind_inv hd
      obtain ⟨_, -, hd⟩ := bind_inv hd
      cases hd
      exact ⟨_, _, _, rfl⟩
    obtain ⟨k, tr, l, hl⟩ := hl
    exact ⟨[], ⟨_, _, k, true, false, tr⟩, by rw [hl]; rfl, rfl, rfl, rfl, by simp⟩

theorem implicit_tells (M : Implicit.IMethod D K E) : Tells (implicitEuler M) := by
  intro s ns s' h
  simp only [implicitEuler] at h
  cases hd : s.doStep M with
  | error e => rw [hd] at h; cases h
  | ok q =>
    obtain ⟨q, tr⟩ := q
    rw [hd] at h
    cases h
    exact ⟨[], _, rfl, rfl, rfl, rfl, by simp⟩

theorem ex_tells [AddCommGroup V] [Module K V] (m : Extrap.ExMethod K V E S Q) (fuel : Nat) : Tells (extrapolator m fuel) := by
  have key : ∀ (s s' : Extrap.ExSt K V E S Q) (A : RK.Attempt (Extrap.ExSt K V E S Q)), s.attempt m = .ok A →
      (∀ msg q, A ≠ .thrown msg q) → (A = .accepted A.state ∧ ∃ k ch tr er l, A.state.log = .post k true ch tr er :: l) ∨
        (A = .rejected A.state ∧ A.state.t = s.t ∧ A.state.x = s.x ∧ ∃ k ch tr er l, A.state.log = .post k false ch tr er :: l) := by
    intro s s' A h hne
    unfold Extrap.ExSt.attempt at h
    obtain ⟨si, hi, h⟩ := bind_inv h
    have hsi : si.t = s.t ∧ si.x = s.x := by
      unfold Extrap.ExSt.initStep at hi
      split at hi
      · cases hi; exact ⟨rfl, rfl⟩
      · split at hi
        · cases hi
        · split at hi
          · cases hi
          · obtain ⟨_, -, hi⟩ := bind_inv hi
            cases hi; exact ⟨rfl, rfl⟩
    obtain ⟨e, -, h⟩ := bind_inv h
    split at h
    · obtain ⟨k, -, h⟩ := bind_inv h
      obtain ⟨⟨ref, q, T, n⟩, -, h⟩ := bind_inv h
      obtain ⟨T, -, h⟩ := bind_inv h
      obtain ⟨next, -, h⟩ := bind_inv h
      obtain ⟨⟨T, er⟩, -, h⟩ := bind_inv h
      dsimp only at h
      generalize (if m.disableErrorCheck = true then (⟨k, true, false⟩ : RK.CtlResult K) else m.control k er m.lowOrder) = res at h
      obtain ⟨⟨s2, tr⟩, h2, h⟩ := bind_inv h
      dsimp only at h
      split at h
      · cases h
        exact absurd rfl (hne _ _)
      · obtain ⟨hn, -, h⟩ := bind_inv h
        cases ha : res.acceptStep with
        | true =>
          rw [ha] at h h2
          cases h
          exact .inl ⟨rfl, _, _, _, _, _, rfl⟩
        | false =>
          rw [ha] at h h2
          cases h
          cases h2
          refine .inr ⟨rfl, ?_, ?_, _, _, _, _, _, rfl⟩
          · simp only [RK.Attempt.state]
            split <;> exact hsi.1
          · simp only [RK.Attempt.state]
            split <;> exact hsi.2
    · cases h
  refine fun s ns s' => passes_tells (S := Extrap.ExSt K V E S Q) (time := fun s => s.t) (state := fun s => s.x)
    (attempt := fun s => s.attempt m) (note := fun s => noteOf s.t s.x s.log) (fun s s' h => ?_) (fun s s' h => ?_) fuel s ns s'
  · rcases key s s' _ h (fun _ _ => by simp) with ⟨-, k, ch, tr, er, l, hl⟩ | ⟨h', -⟩
    · simp only [RK.Attempt.state] at hl
      exact ⟨_, by rw [hl]; rfl, rfl, rfl, rfl⟩
    · cases h'
  · rcases key s s' _ h (fun _ _ => by simp) with ⟨h', -⟩ | ⟨-, h1, h2, k, ch, tr, er, l, hl⟩
    · cases h'
    · simp only [RK.Attempt.state] at hl h1 h2
      exact ⟨h1, h2, _, by rw [hl]; rfl, rfl, rfl, rfl⟩

theorem sw24_log {M : Ros.Method K E} {s : Ros.St K E} {A : RK.Attempt (Ros.St K E)} (h : s.attempt M = .ok A) :
    (∀ q, A = .accepted q → ∃ ch tr er l, q.log = .post s.h true ch tr er :: l) ∧
      ∀ q, A = .rejected q → ∃ ch tr er l, q.log = .post s.h false ch tr er :: l := by
  unfold Ros.St.attempt at h
  obtain ⟨e, -, h⟩ := bind_inv h
  obtain ⟨g, -, h⟩ := bind_inv h
  obtain ⟨g', -, h⟩ := bind_inv h
  dsimp only at h
  generalize (if M.disableErrorCheck = true then (⟨s.h, true, false⟩ : RK.CtlResult K) else M.control s.h g'.err 2) = res at h
  obtain ⟨p, -, h⟩ := bind_inv h
  split at h
  · cases h
    exact ⟨by simp, by simp⟩
  · split at h
    · rename_i ha
      cases h
      refine ⟨?_, by simp⟩
      rintro q ⟨⟩
      rw [ha]
      exact ⟨_, _, _, _, rfl⟩
    · rename_i ha
      cases h
      refine ⟨by simp, ?_⟩
      rintro q ⟨⟩
      rw [Bool.not_eq_true] at ha
      rw [ha]
      exact ⟨_, _, _, _, rfl⟩

theorem sw24_init {M : Ros.Method K E} {s s' : Ros.St K E} (h : s.initStep2 M = .ok s') : s'.t = s.t ∧ s'.x = s.x ∧ s'.h = s.h := by
  unfold Ros.St.initStep2 at h
  obtain ⟨_, -, h⟩ := bind_inv h
  obtain ⟨_, -, h⟩ := bind_inv h
  cases h
  exact ⟨rfl, rfl, rfl⟩

theorem sw24Passes_tells (M : Ros.Method K E) (fuel : Nat) (first : Bool) (s : Ros.St K E) (ns : List (Note K (List K)))
    (s' : Ros.St K E) (h : sw24Passes M fuel first s = (ns, .ok s')) :
    ∃ rej acc, ns = rej ++ [acc] ∧ acc.accepted = true ∧ acc.time = s'.t ∧
      acc.state = s'.x ∧ ∀ n ∈ rej, n.accepted = false ∧ n.time = s.t ∧ n.state = s.x := by
  induction fuel generalizing s ns first with
  | zero => cases h
  | succ fuel ih =>
    unfold sw24Passes at h
    dsimp only at h
    split at h
    · cases h
    · rename_i s1 hs1
      have h1 : s1.t = s.t ∧ s1.x = s.x := by
        split at hs1
        · exact ⟨(sw24_init hs1).1, (sw24_init hs1).2.1⟩
        · cases hs1; exact ⟨rfl, rfl⟩
      split at h
      · cases h
      · cases h
      · rename_i q hA
        cases h
        obtain ⟨ch, tr, er, l, hl⟩ := (sw24_log hA).1 _ rfl
        exact ⟨[], _, by rw [hl]; rfl, rfl, rfl, rfl, by simp⟩
      · rename_i q hA
        simp only [Prod.mk.injEq] at h
        obtain ⟨e1, e2⟩ := h
        obtain ⟨ch, tr, er, l, hl⟩ := (sw24_log hA).2 _ rfl
        obtain ⟨-, c1, c2, -⟩ := Ros.rejected_inv hA
        obtain ⟨rej, acc, d1, d2, d3, d4, d5⟩ := ih false q _ (Prod.ext rfl e2)
        refine ⟨⟨q.t, q.x, s1.h, false, ch, tr⟩ :: rej, acc, ?_, d2, d3, d4, fun m hm => ?_⟩
        · rw [← e1, hl]; exact congrArg (List.cons _) d1
        · rw [List.mem_cons] at hm
          rcases hm with rfl | hm
          · exact ⟨rfl, c1.trans h1.1, c2.trans h1.2⟩
          · obtain ⟨f1, f2, f3⟩ := d5 m hm
            exact ⟨f1, f2.trans (c1.trans h1.1), f3.trans (c2.trans h1.2)⟩

/-- A step of SW2(4) without rejections ends in the first pass and tells of the step size it began with. -/
theorem sw24_first {M : Ros.Method K E} {fuel : Nat} {s s' : Ros.St K E} {ns : List (Note K (List K))}
    (h : (sw24 M fuel).doStep s = (ns, .ok s')) (ha : ∀ n ∈ ns, n.accepted = true) :
    s.doStep2 M 1 = some (.ok (.accepted s')) ∧ ∃ n ∈ ns, n.h = s.h := by
  cases fuel with
  | zero => cases h
  | succ fuel =>
    simp only [sw24] at h
    unfold sw24Passes at h
    dsimp only at h
    unfold Ros.St.doStep2 Ros.St.passes
    dsimp only
    simp only [if_true] at h ⊢
    split at h
    · cases h
    · rename_i s1 hs1
      rw [hs1]
      dsimp only
      split at h
      · cases h
      · cases h
      · rename_i q hA
        cases h
        obtain ⟨ch, tr, er, l, hl⟩ := (sw24_log hA).1 _ rfl
        rw [hA]
        refine ⟨rfl, _, by rw [hl]; exact List.mem_singleton_self _, (sw24_init hs1).2.2⟩
      · rename_i q hA
        simp only [Prod.mk.injEq] at h
        obtain ⟨ch, tr, er, l, hl⟩ := (sw24_log hA).2 _ rfl
        have := ha ⟨q.t, q.x, s1.h, false, ch, tr⟩ (by
          rw [← h.1, hl]
          exact List.mem_append_left _ (List.mem_singleton_self _))
        simp at this

theorem sw24_tells (M : Ros.Method K E) (fuel : Nat) : Tells (sw24 M fuel) :=
  fun s ns s' h => sw24Passes_tells M fuel true s ns s' h

end

end Verif.Driver
