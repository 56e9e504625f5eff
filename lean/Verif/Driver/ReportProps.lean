import Verif.Driver.GateProps

/-! # C100: the step report -/

set_option linter.unusedSectionVars false

namespace Verif.Driver

open Verif.Res

section
variable {K V : Type} [Field K] [LinearOrder K] [IsStrictOrderedRing K]

/-- The report after all calls of the post-observers -/
def General.afterAll (a : General K) (ns : List (Note K V)) : General K := ns.foldl General.after a

/-- The report that leaves nothing out, with attempts numbered from `k` -/
def allLines (k : Nat) (ns : List (Note K V)) : List (Line K) :=
  ns.mapIdx (fun i n => ⟨k + i, n.time, n.h, n.accepted, n.changed, n.tr⟩)

theorem allLines_cons (k : Nat) (n : Note K V) (ns : List (Note K V)) :
    allLines k (n :: ns) = ⟨k, n.time, n.h, n.accepted, n.changed, n.tr⟩ :: allLines (k + 1) ns := by
  simp only [allLines, List.mapIdx_cons, Nat.add_zero, List.cons.injEq, true_and]
  congr 1
  funext i n
  rw [Nat.add_right_comm, Nat.add_assoc]

theorem General.after_gate (a : General K) (n : Note K V) :
    (a.after n).gate.timing = a.gate.timing := by
  simp only [General.after, Gate.outputNow]
  split <;> rfl

theorem General.afterAll_lines (ns : List (Note K V)) (a : General K) :
    ∃ l, (a.afterAll ns).lines = a.lines ++ l ∧ l.Sublist (allLines (a.nSteps + 1) ns) ∧
      (∀ e ∈ allLines (a.nSteps + 1) ns, e.tr.truncated = true → e ∈ l) ∧
      (a.gate.timing ≤ 0 → l = allLines (a.nSteps + 1) ns) ∧
      (a.afterAll ns).nSteps = a.nSteps + ns.length := by
  induction ns generalizing a with
  | nil => exact ⟨[], by simp [General.afterAll], by simp [allLines], by simp [allLines],
      by simp [allLines], by simp [General.afterAll]⟩
  | cons n ns ih =>
    obtain ⟨l, h1, h2, h3, h4, h5⟩ := ih (a.after n)
    have hn : (a.after n).nSteps = a.nSteps + 1 := rfl
    rw [hn] at h2 h3 h4 h5
    rw [General.after_gate] at h4
    have e0 : a.afterAll (n :: ns) = (a.after n).afterAll ns := rfl
    rw [e0, h1, allLines_cons, h5]
    have hlen : a.nSteps + 1 + ns.length = a.nSteps + (n :: ns).length := by
      simp only [List.length_cons]; omega
    cases hr : (a.gate.outputNow n.time n.tr.truncated).1 with
    | true =>
      refine ⟨⟨a.nSteps + 1, n.time, n.h, n.accepted, n.changed, n.tr⟩ :: l, ?_, ?_, ?_, ?_, hlen⟩
      · simp [General.after, hr]
      · exact h2.cons_cons _
      · intro e he ht
        rcases List.mem_cons.1 he with rfl | he
        · exact List.mem_cons_self
        · exact List.mem_cons_of_mem _ (h3 e he ht)
      · intro ht
        rw [h4 ht]
    | false =>
      refine ⟨l, ?_, ?_, ?_, ?_, hlen⟩
      · simp [General.after, hr]
      · exact h2.cons _
      · intro e he ht
        rcases List.mem_cons.1 he with rfl | he
        · simp only at ht
          rw [ht] at hr
          simp [Gate.outputNow] at hr
        · exact h3 e he ht
      · intro ht
        rw [C45_always _ ht] at hr
        cases hr

/-- C100. The lines of the report are some of the attempts, rejected ones included, in order, each with its
number counted from one and with its own time, step size and flags; all attempts truncated by an event are
there, and with a timing of zero or less all attempts are. -/
theorem C100_lines (timing start : K) (ns : List (Note K V)) :
    let r := (General.new timing start).afterAll ns
    r.lines.Sublist (allLines 1 ns) ∧
      (∀ e ∈ allLines 1 ns, e.tr.truncated = true → e ∈ r.lines) ∧
      (timing ≤ 0 → r.lines = allLines 1 ns) ∧ r.nSteps = ns.length := by
  obtain ⟨l, h1, h2, h3, h4, h5⟩ := General.afterAll_lines ns (General.new timing start)
  have h1' : ((General.new timing start).afterAll ns).lines = l := h1
  intro r
  refine ⟨?_, ?_, ?_, ?_⟩
  · exact h1' ▸ h2
  · exact fun e he ht => h1' ▸ h3 e he ht
  · exact fun ht => h1' ▸ h4 ht
  · exact h5.trans (Nat.zero_add _)

theorem General.report_inv (timing start : K) (hT : 0 < timing) (ns : List (Note K V)) :
    let r := (General.new timing start).afterAll ns
    r.gate.timing = timing ∧ r.gate.report = ((r.lines.getLast?).map (·.time)).getD (start - 2 * timing) := by
  induction ns using List.reverseRecOn with
  | nil => exact ⟨rfl, rfl⟩
  | append_singleton ns n ih =>
    obtain ⟨h1, h2⟩ := ih
    have e0 : (General.new timing start).afterAll (ns ++ [n]) =
        ((General.new timing start).afterAll ns).after n := by
      simp [General.afterAll]
    intro r
    have e0' : r = ((General.new timing start).afterAll ns).after n := e0
    clear_value r
    subst e0'
    obtain ⟨-, b2, -, b4⟩ := C45_call ((General.new timing start).afterAll ns).gate (by rw [h1]; exact hT)
      n.time n.tr.truncated
    refine ⟨(b2.trans h1 : _), ?_⟩
    simp only [General.after]
    rw [b4]
    cases hr : (((General.new timing start).afterAll ns).gate.outputNow n.time n.tr.truncated).1 with
    | true => simp
    | false => simpa using h2

/-- C100. With positive timing, one more attempt at or after the start time gets a line exactly when it was
truncated by an event, or nothing was written before, or the timing has passed since the time of the last
line. -/
theorem C100_timed (timing start : K) (hT : 0 < timing) (ns : List (Note K V)) (n : Note K V)
    (hn : start ≤ n.time) :
    let r := ((General.new timing start).afterAll ns).lines
    ((General.new timing start).afterAll (ns ++ [n])).lines = r ++
      if n.tr.truncated = true ∨ r = [] ∨ ∃ a, r.getLast? = some a ∧ a.time + timing ≤ n.time then
        [⟨ns.length + 1, n.time, n.h, n.accepted, n.changed, n.tr⟩] else [] := by
  intro r
  have e0 : (General.new timing start).afterAll (ns ++ [n]) =
      ((General.new timing start).afterAll ns).after n := by
    simp [General.afterAll]
  obtain ⟨h1, h2⟩ := General.report_inv timing start hT ns
  have h3 := (C100_lines timing start ns).2.2.2
  rw [e0]
  have key : (((General.new timing start).afterAll ns).gate.outputNow n.time n.tr.truncated).1 = true ↔
      n.tr.truncated = true ∨ r = [] ∨ ∃ a, r.getLast? = some a ∧ a.time + timing ≤ n.time := by
    rw [(C45_call _ (by rw [h1]; exact hT) n.time n.tr.truncated).1, h1, h2]
    change _ ∨ ((r.getLast?).map (·.time)).getD (start - 2 * timing) + timing ≤ n.time ↔ _
    cases hl : r.getLast? with
    | none =>
      have : r = [] := List.getLast?_eq_none_iff.1 hl
      simp only [this, true_or, or_true, iff_true]
      right
      simp only [Option.map_none, Option.getD_none]
      linarith
    | some a =>
      have : r ≠ [] := by
        intro h; rw [h] at hl; cases hl
      simp only [this, false_or, Option.map_some, Option.getD_some, Option.some.injEq, exists_eq_left']
  simp only [General.after, h3]
  by_cases hk : (((General.new timing start).afterAll ns).gate.outputNow n.time n.tr.truncated).1 = true
  · rw [if_pos hk, if_pos (key.1 hk)]
  · rw [if_neg hk, if_neg (fun h => hk (key.2 h)), List.append_nil]

/-- A report with timing 1: an attempt after 1/2 gets the first line, a rejected one at the same time none, a
truncated one at 3/4 a line, then one at 7/4. -/
example : ((General.new (1 : ℚ) 0).afterAll
    [(⟨1/2, (), 1/2, true, false, ⟨false, none, 0⟩⟩ : Note ℚ Unit), ⟨1/2, (), 1/2, false, true, ⟨false, none, 0⟩⟩,
      ⟨3/4, (), 1/4, true, false, ⟨true, some 0, 0⟩⟩, ⟨5/4, (), 1/2, true, false, ⟨false, none, 0⟩⟩,
      ⟨7/4, (), 1/2, true, false, ⟨false, none, 0⟩⟩]).lines.map (·.step) = [1, 3, 5] := by
  decide +kernel

end

end Verif.Driver
