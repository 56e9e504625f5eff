import Verif.Driver.RunProps
import Mathlib.Algebra.Order.Field.Rat

/-!
# Integration in pieces (C143)

What comes of calling `solveOde` again, without a new initial state.
-/

set_option linter.unusedSectionVars false

namespace Verif.Driver.Pieces

open Verif.Res RK

/-- The reports among the events of a run -/
def notes {K V : Type} (evs : List (Ev K V)) : List (Note K V) :=
  evs.filterMap fun e => match e with | .note n => some n | _ => none

section
variable {K V S : Type} [Field K] [LinearOrder K] [IsStrictOrderedRing K]

theorem loop_join (sv : Solver K V S) (e1 e2 : K) (he : e1 ≤ e2) (f1 : Nat) (s s1 : S) (ns1 : List (Note K V))
    (h : runLoop sv e1 f1 s = some (ns1, .ok s1)) (h2 : sv.time s1 < e2) :
    ∃ k, 1 ≤ k ∧ k ≤ f1 ∧ ∀ f2, runLoop sv e2 (k + f2) s = (runLoop sv e2 f2 s1).map fun r => (ns1 ++ r.1, r.2) := by
  induction f1 generalizing s ns1 with
  | zero => cases h
  | succ f ih =>
    unfold runLoop at h
    rcases hd : sv.doStep s with ⟨n1, f' | a⟩ <;> rw [hd] at h
    · cases h
    · simp only at h
      split at h
      · rename_i hlt
        rcases h3 : runLoop sv e1 f a with _ | ⟨n2, r2⟩ <;> rw [h3] at h
        · cases h
        · simp only [Option.map_some, Option.some.injEq, Prod.mk.injEq] at h
          obtain ⟨rfl, rfl⟩ := h
          obtain ⟨k, k0, k1, k2⟩ := ih a n2 h3
          refine ⟨k + 1, by omega, by omega, fun f2 => ?_⟩
          rw [show k + 1 + f2 = (k + f2) + 1 by omega]
          conv_lhs => unfold runLoop
          rw [hd]
          simp only
          rw [if_pos (hlt.trans_le he), k2 f2]
          rcases runLoop sv e2 f2 s1 with _ | ⟨n3, r3⟩
          · rfl
          · simp
      · simp only [Option.some.injEq, Prod.mk.injEq, Except.ok.injEq] at h
        obtain ⟨rfl, rfl⟩ := h
        refine ⟨1, le_rfl, by omega, fun f2 => ?_⟩
        rw [show 1 + f2 = f2 + 1 by omega]
        conv_lhs => unfold runLoop
        rw [hd]
        simp only
        rw [if_pos h2]

theorem loop_fuel (sv : Solver K V S) (e : K) (f g : Nat) (hfg : f ≤ g) (s : S) (r : List (Note K V) × Res S)
    (h : runLoop sv e f s = some r) : runLoop sv e g s = some r := by
  induction f generalizing s g r with
  | zero => cases h
  | succ f ih =>
    obtain ⟨g, rfl⟩ : ∃ g', g = g' + 1 := ⟨g - 1, by omega⟩
    unfold runLoop at h ⊢
    rcases hd : sv.doStep s with ⟨n1, f' | a⟩ <;> rw [hd] at h
    · exact h
    · simp only at h ⊢
      split at h
      · rename_i hlt
        rw [if_pos hlt]
        rcases h3 : runLoop sv e f a with _ | r2 <;> rw [h3] at h
        · cases h
        · rw [ih g (by omega) a r2 h3]
          exact h
      · rename_i hlt
        rw [if_neg hlt]
        exact h

theorem loop_split (sv : Solver K V S) (e1 e2 : K) (he : e1 ≤ e2) (f : Nat) (s s2 : S) (ns : List (Note K V))
    (h : runLoop sv e2 f s = some (ns, .ok s2)) :
    ∃ ns1 s1, runLoop sv e1 f s = some (ns1, .ok s1) ∧
      ((s1 = s2 ∧ ns1 = ns ∧ e2 ≤ sv.time s1) ∨
        (sv.time s1 < e2 ∧ ∃ ns2, runLoop sv e2 f s1 = some (ns2, .ok s2) ∧ ns = ns1 ++ ns2)) := by
  induction f generalizing s ns with
  | zero => cases h
  | succ f ih =>
    unfold runLoop at h
    rcases hd : sv.doStep s with ⟨n1, f' | a⟩ <;> rw [hd] at h
    · cases h
    · simp only at h
      split at h
      · rename_i hlt
        rcases h3 : runLoop sv e2 f a with _ | ⟨n2, r2⟩ <;> rw [h3] at h
        · cases h
        · simp only [Option.map_some, Option.some.injEq, Prod.mk.injEq] at h
          obtain ⟨rfl, rfl⟩ := h
          by_cases h1 : sv.time a < e1
          · obtain ⟨ns1, s1, k1, k2⟩ := ih a n2 h3
            refine ⟨n1 ++ ns1, s1, ?_, ?_⟩
            · unfold runLoop
              rw [hd]
              simp only
              rw [if_pos h1, k1]
              rfl
            · rcases k2 with ⟨a1, a2, a3⟩ | ⟨a1, ns2, a2, a3⟩
              · exact .inl ⟨a1, by rw [a2], a3⟩
              · exact .inr ⟨a1, ns2, loop_fuel sv e2 f (f + 1) (by omega) s1 _ a2, by rw [a3, List.append_assoc]⟩
          · refine ⟨n1, a, ?_, .inr ⟨hlt, n2, loop_fuel sv e2 f (f + 1) (by omega) a _ h3, rfl⟩⟩
            unfold runLoop
            rw [hd]
            simp only
            rw [if_neg h1]
      · rename_i hlt
        simp only [Option.some.injEq, Prod.mk.injEq, Except.ok.injEq] at h
        obtain ⟨rfl, rfl⟩ := h
        refine ⟨n1, a, ?_, .inl ⟨rfl, rfl, not_lt.1 hlt⟩⟩
        unfold runLoop
        rw [hd]
        simp only
        rw [if_neg (fun hh => hlt (hh.trans_le he))]

theorem notes_run (l : List Slot) (ns : List (Note K V)) : notes (l.map .started ++ ns.map .note) = ns ∧
    notes (l.map .started ++ ns.map .note ++ l.map .finished) = ns := by
  have h1 : ∀ l : List Slot, notes (l.map (Ev.started : Slot → Ev K V)) = [] := fun l => by
    induction l with
    | nil => rfl
    | cons a l ih => exact ih
  have h2 : ∀ l : List Slot, notes (l.map (Ev.finished : Slot → Ev K V)) = [] := fun l => by
    induction l with
    | nil => rfl
    | cons a l ih => exact ih
  have h3 : ∀ ns : List (Note K V), notes (ns.map Ev.note) = ns := fun ns => by
    induction ns with
    | nil => rfl
    | cons a l ih => exact congrArg (a :: ·) ih
  have app : ∀ a b : List (Ev K V), notes (a ++ b) = notes a ++ notes b := fun a b => List.filterMap_append
  have h4 : notes (l.map .started ++ ns.map .note) = ns := by rw [app, h1, h3, List.nil_append]
  exact ⟨h4, by rw [app, h4, h2, List.append_nil]⟩

theorem solve_loop (sv : Solver K V S) (hr : ∀ s, sv.hasRhs s = true) (c : Outputs) (hc : c.Start) (d : K) (f : Nat) (s : S) :
    (solveOde sv c d f s).map (fun r => (notes r.1, r.2)) = runLoop sv (sv.time s + d) f s := by
  unfold solveOde
  rw [if_pos (hr s), initOutput_ok c hc]
  simp only
  rcases runLoop sv (sv.time s + d) f s with _ | ⟨ns, f' | a⟩
  · rfl
  · simp only [Option.map_some, (notes_run _ ns).1]
  · simp only [Option.map_some, (notes_run _ ns).2]

theorem solve_some (sv : Solver K V S) (hr : ∀ s, sv.hasRhs s = true) (c : Outputs) (hc : c.Start) (d : K) (f : Nat) (s : S)
    (ns : List (Note K V)) (r : Res S) (h : runLoop sv (sv.time s + d) f s = some (ns, r)) :
    ∃ evs, solveOde sv c d f s = some (evs, r) ∧ notes evs = ns := by
  have := solve_loop sv hr c hc d f s
  rw [h] at this
  rcases hs : solveOde sv c d f s with _ | ⟨evs, r'⟩ <;> rw [hs] at this
  · cases this
  · simp only [Option.map_some, Option.some.injEq, Prod.mk.injEq] at this
    exact ⟨evs, by rw [this.2], this.1⟩

/-- C143: a run continued by a second call is one run to the time at which the second one has to end: the same reports in the same
order and the same outcome, be it an exception or that the run does not end. -/
theorem C143_joined (sv : Solver K V S) (hr : ∀ s, sv.hasRhs s = true) (c : Outputs) (hc : c.Start) (d1 d2 : K) (hd : 0 < d2)
    (f1 : Nat) (s s1 : S) (evs1 : List (Ev K V)) (h : solveOde sv c d1 f1 s = some (evs1, .ok s1)) :
    ∃ k, 1 ≤ k ∧ k ≤ f1 ∧ ∀ f2,
      (solveOde sv c (sv.time s1 + d2 - sv.time s) (k + f2) s).map (fun r => (notes r.1, r.2)) =
        (solveOde sv c d2 f2 s1).map fun r => (notes evs1 ++ notes r.1, r.2) := by
  have h1 := solve_loop sv hr c hc d1 f1 s
  rw [h] at h1
  simp only [Option.map_some] at h1
  have hle : sv.time s + d1 ≤ sv.time s1 := by
    obtain ⟨l, -, -, -, -, a5, -⟩ := (runLoop_ok sv _ f1 s _ s1).1 h1.symm
    exact a5
  obtain ⟨k, k0, k1, k2⟩ := loop_join sv _ (sv.time s1 + d2) (by linarith) f1 s s1 _ h1.symm (by linarith)
  refine ⟨k, k0, k1, fun f2 => ?_⟩
  rw [solve_loop sv hr c hc, add_sub_cancel, k2, ← solve_loop sv hr c hc, Option.map_map]
  rfl

/-- C143: when the first run ends exactly where it has to, the two durations may be added. -/
theorem C143_exact (sv : Solver K V S) (hr : ∀ s, sv.hasRhs s = true) (c : Outputs) (hc : c.Start) (d1 d2 : K) (hd : 0 < d2)
    (f1 : Nat) (s s1 : S) (evs1 : List (Ev K V)) (h : solveOde sv c d1 f1 s = some (evs1, .ok s1))
    (ht : sv.time s1 = sv.time s + d1) :
    ∃ k, 1 ≤ k ∧ k ≤ f1 ∧ ∀ f2, (solveOde sv c (d1 + d2) (k + f2) s).map (fun r => (notes r.1, r.2)) =
      (solveOde sv c d2 f2 s1).map fun r => (notes evs1 ++ notes r.1, r.2) := by
  have := C143_joined sv hr c hc d1 d2 hd f1 s s1 evs1 h
  rwa [ht, show sv.time s + d1 + d2 - sv.time s = d1 + d2 by ring] at this

/-- C143: a run may be stopped on the way: the shorter run returns, and continuing it to the time the longer one has to end at gives
the longer run. -/
theorem C143_split (sv : Solver K V S) (hr : ∀ s, sv.hasRhs s = true) (c : Outputs) (hc : c.Start) (d1 d : K) (hd : d1 ≤ d)
    (f : Nat) (s s2 : S) (evs : List (Ev K V)) (h : solveOde sv c d f s = some (evs, .ok s2)) :
    ∃ evs1 s1, solveOde sv c d1 f s = some (evs1, .ok s1) ∧
      ((s1 = s2 ∧ notes evs1 = notes evs ∧ sv.time s + d ≤ sv.time s1) ∨
        (sv.time s1 < sv.time s + d ∧ ∃ evs2, solveOde sv c (sv.time s + d - sv.time s1) f s1 = some (evs2, .ok s2) ∧
          notes evs = notes evs1 ++ notes evs2)) := by
  have h1 := solve_loop sv hr c hc d f s
  rw [h] at h1
  simp only [Option.map_some] at h1
  obtain ⟨ns1, s1, a1, a2⟩ := loop_split sv (sv.time s + d1) _ (by linarith) f s s2 _ h1.symm
  obtain ⟨evs1, b1, b2⟩ := solve_some sv hr c hc d1 f s ns1 _ a1
  refine ⟨evs1, s1, b1, ?_⟩
  rcases a2 with ⟨c1, c2, c3⟩ | ⟨c1, ns2, c2, c3⟩
  · exact .inl ⟨c1, by rw [b2, c2], c3⟩
  · obtain ⟨evs2, e1, e2⟩ := solve_some sv hr c hc (sv.time s + d - sv.time s1) f s1 ns2 (.ok s2) (by rwa [add_sub_cancel])
    exact .inr ⟨c1, evs2, e1, by rw [c3, b2, e2]⟩

/-- Calls of `solveOde` one after the other, all of which return -/
inductive Calls (sv : Solver K V S) (c : Outputs) : S → List K → S → Prop
  | nil (s : S) : Calls sv c s [] s
  | cons {s s1 s2 : S} {d : K} {ds : List K} {f : Nat} {evs : List (Ev K V)} (h : solveOde sv c d f s = some (evs, .ok s1))
      (hs : Calls sv c s1 ds s2) : Calls sv c s (d :: ds) s2

theorem loop_late (sv : Solver K V S) (Inv : S → Prop) (h e : K)
    (hst : ∀ s ns s', Inv s → sv.doStep s = (ns, .ok s') → Inv s' ∧ sv.time s' ≤ sv.time s + h) (f : Nat) (s s' : S)
    (ns : List (Note K V)) (hi : Inv s) (ht : sv.time s < e) (hl : runLoop sv e f s = some (ns, .ok s')) :
    Inv s' ∧ e ≤ sv.time s' ∧ sv.time s' < e + h := by
  induction f generalizing s ns with
  | zero => cases hl
  | succ f ih =>
    unfold runLoop at hl
    rcases hd : sv.doStep s with ⟨n1, f' | a⟩ <;> rw [hd] at hl
    · cases hl
    · obtain ⟨k1, k2⟩ := hst s n1 a hi hd
      simp only at hl
      split at hl
      · rename_i hlt
        rcases h3 : runLoop sv e f a with _ | ⟨n2, r2⟩ <;> rw [h3] at hl
        · cases hl
        · simp only [Option.map_some, Option.some.injEq, Prod.mk.injEq] at hl
          obtain ⟨rfl, rfl⟩ := hl
          exact ih a n2 k1 hlt h3
      · rename_i hlt
        simp only [Option.some.injEq, Prod.mk.injEq, Except.ok.injEq] at hl
        obtain ⟨rfl, rfl⟩ := hl
        exact ⟨k1, not_lt.1 hlt, by linarith⟩

/-- C143: with steps of at most `h`, the end of `n` runs one after the other is late by less than `n h`, and never early. -/
theorem C143_drift (sv : Solver K V S) (hr : ∀ s, sv.hasRhs s = true) (c : Outputs) (hc : c.Start) (Inv : S → Prop) (h : K)
    (hst : ∀ s ns s', Inv s → sv.doStep s = (ns, .ok s') → Inv s' ∧ sv.time s' ≤ sv.time s + h) (ds : List K) (hne : ds ≠ [])
    (hd : ∀ d ∈ ds, 0 < d) (s s' : S) (hi : Inv s) (hs : Calls sv c s ds s') :
    sv.time s + ds.sum ≤ sv.time s' ∧ sv.time s' < sv.time s + ds.sum + ds.length * h := by
  induction hs with
  | nil s => exact absurd rfl hne
  | @cons s s1 s2 d ds f evs h1 h2 ih =>
    have h3 := solve_loop sv hr c hc d f s
    rw [h1] at h3
    simp only [Option.map_some] at h3
    have := hd d (List.mem_cons_self ..)
    obtain ⟨k1, k2, k3⟩ := loop_late sv Inv h _ hst f s s1 _ hi (by linarith) h3.symm
    simp only [List.sum_cons, List.length_cons, Nat.cast_add, Nat.cast_one]
    rcases ds with _ | ⟨d', ds⟩
    · cases h2
      simp only [List.sum_nil, List.length_nil, Nat.cast_zero]
      constructor <;> linarith
    · obtain ⟨i1, i2⟩ := ih (List.cons_ne_nil _ _) (fun d hd' => hd d (List.mem_cons_of_mem _ hd')) k1
      constructor <;> linarith

end

section
variable {K V E : Type} [Field K] [LinearOrder K] [IsStrictOrderedRing K] [Zero V] [Add V] [SMul K V]

/-- C143: a fixed-step explicit Runge-Kutta solver with step `h` and no event controller, called `n` times in a row for positive
durations, ends late by less than `n h`, and never early. -/
theorem C143_fixed (m : Method K V E) (hm : m.ec = none) (c : Outputs) (hc : c.Start) (t h : K) (x : V) (hold : Option K) (e : E)
    (l : List (Obs K)) (ds : List K) (hne : ds ≠ []) (hd : ∀ d ∈ ds, 0 < d) (s' : FixedSt K V E)
    (hs : Calls (erk m) c ⟨t, x, hold, Output.mkEmpty, h, e, l⟩ ds s') :
    t + ds.sum ≤ s'.t ∧ s'.t < t + ds.sum + ds.length * h := by
  refine C143_drift (erk m) (fun _ => rfl) c hc (fun s => s.hInit = h ∧ (s.out.k.isEmpty = false → s.h = some h)) h ?_ ds hne hd
    ⟨t, x, hold, Output.mkEmpty, h, e, l⟩ s' ⟨rfl, fun hh => by cases hh⟩ hs
  intro s ns s' hi hst
  have h1 : s.doStep m = .ok s' := by
    simp only [erk] at hst
    split at hst
    · rename_i a ha
      simp only [Prod.mk.injEq, Except.ok.injEq] at hst
      rw [ha, hst.2]
    · simp at hst
  show (s'.hInit = h ∧ _) ∧ s'.t ≤ s.t + h
  obtain ⟨q, hq, q1, q2, q3⟩ : ∃ q : FixedSt K V E, FixedSt.initStep m { s with log := .pre s.h :: s.log } = q ∧ q.t = s.t ∧
      q.hInit = h ∧ q.h = some h := by
    refine ⟨_, rfl, ?_⟩
    unfold FixedSt.initStep
    by_cases hk : s.out.k.isEmpty = true
    · rw [if_pos hk]
      exact ⟨rfl, hi.1, congrArg some hi.1⟩
    · rw [if_neg hk]
      exact ⟨rfl, hi.1, hi.2 (by simpa using hk)⟩
  unfold FixedSt.doStep at h1
  simp only [hq, ecStart, hm, q3, readH, bind_ok, ecEnd] at h1
  obtain ⟨out, -, h1⟩ := bind_inv h1
  obtain ⟨nx, -, h1⟩ := bind_inv h1
  obtain ⟨x2, -, h1⟩ := bind_inv h1
  simp only [Except.ok.injEq] at h1
  subst h1
  exact ⟨⟨q2, fun _ => rfl⟩, by rw [q1]⟩

end

/-! ### Examples -/

/-- The method of Euler with step 1 for `x' = x` -/
def startOne : FixedSt ℚ ℚ Unit := ⟨0, 1, none, Output.mkEmpty, 1, (), []⟩

/-- The time and the state at the end of a run that returns -/
def ending (r : Option (List (Ev ℚ ℚ) × Res (FixedSt ℚ ℚ Unit))) : Option (ℚ × ℚ) :=
  match r with
  | some (_, .ok s) => some (s.t, s.x)
  | _ => none

theorem ending_some (r : Option (List (Ev ℚ ℚ) × Res (FixedSt ℚ ℚ Unit))) (t x : ℚ) (h : ending r = some (t, x)) :
    ∃ e s, r = some (e, .ok s) ∧ s.t = t := by
  unfold ending at h
  split at h
  · rename_i e s
    simp only [Option.some.injEq, Prod.mk.injEq] at h
    exact ⟨e, s, rfl, h.1⟩
  · cases h

/-- C143 is false of the code with durations added: half a second and half a second more is not one second. Each call makes a
step of one second. -/
theorem C143_sum_false : ¬ ∀ (c : Outputs) (_ : c.Start) (d1 d2 : ℚ) (_ : 0 < d1) (_ : 0 < d2) (f : Nat) (s s1 s2 s3 : FixedSt ℚ ℚ Unit)
    (e1 e2 e3 : List (Ev ℚ ℚ)), solveOde (erk eulerMethod) c d1 f s = some (e1, .ok s1) →
    solveOde (erk eulerMethod) c d2 f s1 = some (e2, .ok s2) → solveOde (erk eulerMethod) c (d1 + d2) f s = some (e3, .ok s3) →
    s3.t = s2.t := by
  intro h
  have k1 : (solveOde (erk eulerMethod) ⟨none, none, none⟩ (1/2) 3 startOne).bind (fun r => match r.2 with
      | .ok s => ending (solveOde (erk eulerMethod) ⟨none, none, none⟩ (1/2) 3 s)
      | .error _ => none) = some (2, 4) := by decide +kernel
  have k2 : ending (solveOde (erk eulerMethod) ⟨none, none, none⟩ (1/2 + 1/2) 3 startOne) = some (1, 2) := by decide +kernel
  rcases h1 : solveOde (erk eulerMethod) ⟨none, none, none⟩ (1/2) 3 startOne with _ | ⟨e1, _ | s1⟩ <;> rw [h1] at k1
  · cases k1
  · cases k1
  · obtain ⟨e2, s2, h2, t2⟩ := ending_some _ _ _ k1
    obtain ⟨e3, s3, h3, t3⟩ := ending_some _ _ _ k2
    have := h ⟨none, none, none⟩ (fun r hr => by simp at hr) (1/2) (1/2) (by norm_num) (by norm_num) 3 startOne s1 s2 s3 e1 e2 e3 h1 h2 h3
    rw [t2, t3] at this
    norm_num at this

/-- The run with duration 2 is the run with duration 1, continued. -/
example : ending (solveOde (erk eulerMethod) ⟨none, none, none⟩ 2 3 startOne) = some (2, 4) ∧
    (solveOde (erk eulerMethod) ⟨none, none, none⟩ 1 3 startOne).bind (fun r => match r.2 with
      | .ok s => ending (solveOde (erk eulerMethod) ⟨none, none, none⟩ 1 3 s)
      | .error _ => none) = some (2, 4) := by decide +kernel

/-- Two calls for half a second: the end is a second late, which is within the two seconds of `C143_fixed`. -/
example : ∃ s', Calls (erk eulerMethod) ⟨none, none, none⟩ startOne [1/2, 1/2] s' ∧ s'.t = 2 := by
  have k1 : (solveOde (erk eulerMethod) ⟨none, none, none⟩ (1/2) 3 startOne).bind (fun r => match r.2 with
      | .ok s => ending (solveOde (erk eulerMethod) ⟨none, none, none⟩ (1/2) 3 s)
      | .error _ => none) = some (2, 4) := by decide +kernel
  rcases h1 : solveOde (erk eulerMethod) ⟨none, none, none⟩ (1/2) 3 startOne with _ | ⟨e1, _ | s1⟩ <;> rw [h1] at k1
  · cases k1
  · cases k1
  · obtain ⟨e2, s2, h2, t2⟩ := ending_some _ _ _ k1
    exact ⟨s2, .cons h1 (.cons h2 (.nil _)), t2⟩

end Verif.Driver.Pieces
