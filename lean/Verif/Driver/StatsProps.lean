import Verif.Driver.RunProps
import Verif.Event.Model
import Verif.Witness
import Mathlib.Algebra.BigOperators.Group.List.Basic
import Mathlib.Algebra.Order.Field.Basic
import Mathlib.Data.List.Chain
import Mathlib.Tactic.Ring
import Mathlib.Tactic.Linarith

/-! # C95: the statistics of a run -/

set_option linter.unusedSectionVars false

namespace Verif.Driver

open Verif.Res

section
variable {K V : Type} [Field K] [LinearOrder K]

/-- Statistics after the calls `ns` of the post-observers -/
def Stats.afterAll (a : Stats K) (ns : List (Note K V)) : Stats K := ns.foldl Stats.after a

theorem Stats.after_all (a : Stats K) (ns : List (Note K V)) :
    a.afterAll ns = ⟨a.nSteps + ns.length, a.nRejected + ns.countP (fun n => !n.accepted),
      a.nChanges + ns.countP (·.changed), a.nTruncated + ns.countP (·.tr.truncated),
      a.sum + ((ns.filter (·.accepted)).map (·.h)).sum⟩ := by
  unfold Stats.afterAll
  induction ns generalizing a with
  | nil => simp
  | cons n ns ih =>
    rw [List.foldl_cons, ih]
    unfold Stats.after
    rcases n with ⟨t, x, h, acc, ch, ⟨tr, iz, dir⟩⟩
    cases acc <;> cases ch <;> cases tr <;>
      simp [Nat.add_comm, add_assoc]

/-- C95. The statistics count all attempts, the rejected ones, those after which the step size was changed, the
truncated ones, and sum up the sizes of the accepted ones. -/
theorem C95_counts (ns : List (Note K V)) :
    let a := (Stats.new : Stats K).afterAll ns
    a.nSteps = ns.length ∧ a.nRejected = ns.countP (fun n => !n.accepted) ∧
      a.nChanges = ns.countP (·.changed) ∧ a.nTruncated = ns.countP (·.tr.truncated) ∧
      a.sum = ((ns.filter (·.accepted)).map (·.h)).sum := by
  rw [Stats.after_all]
  simp [Stats.new]

theorem countP_not_add (ns : List (Note K V)) :
    ns.length - ns.countP (fun n => !n.accepted) = (ns.filter (·.accepted)).length ∧
      ns.countP (fun n => !n.accepted) ≤ ns.length := by
  have h1 := List.length_eq_countP_add_countP (fun n : Note K V => n.accepted) (l := ns)
  have h2 : ns.countP (fun n => decide ¬(n.accepted = true)) = ns.countP (fun n => !n.accepted) := by
    congr 1
    funext n
    cases n.accepted <;> rfl
  rw [h2, List.countP_eq_length_filter] at h1
  omega

/-- C95. The average step size is the mean of the sizes of the accepted steps; without accepted steps it is
0/0. -/
theorem C95_average [CharZero K] (ns : List (Note K V)) :
    ((Stats.new : Stats K).afterAll ns).average =
      if ns.filter (·.accepted) = [] then .error .divZero
      else .ok (((ns.filter (·.accepted)).map (·.h)).sum / ((ns.filter (·.accepted)).length : K)) := by
  obtain ⟨h1, h2⟩ := countP_not_add ns
  rw [Stats.after_all]
  unfold Stats.average
  simp only [Stats.new, zero_add]
  rw [if_pos h2, h1]
  unfold div
  by_cases he : ns.filter (·.accepted) = []
  · simp [he]
  · have hl : ((ns.filter (·.accepted)).length : K) ≠ 0 := by
      rw [Nat.cast_ne_zero, ne_eq, List.length_eq_zero_iff]
      exact he
    rw [if_neg hl, if_neg he]

/-- Calls with the time of a solver that makes whole steps: an accepted step ends its size after the time
before, a rejected one does not move time. -/
def Whole : K → List (Note K V) → K → Prop
  | t, [], t' => t' = t
  | t, n :: ns, t' => n.time = (if n.accepted then t + n.h else t) ∧ Whole n.time ns t'

theorem whole_sum (ns : List (Note K V)) (t t' : K) (h : Whole t ns t') :
    t' = t + ((ns.filter (·.accepted)).map (·.h)).sum := by
  induction ns generalizing t with
  | nil => simpa [Whole] using h
  | cons n ns ih =>
    obtain ⟨h1, h2⟩ := h
    rw [ih _ h2, h1]
    by_cases ha : n.accepted = true
    · simp [ha, add_assoc]
    · simp [ha]

/-- C95, what holds: when no step is cut short, the average step size times the number of accepted steps is
the time gone by. -/
theorem C95_elapsed_partial [CharZero K] (ns : List (Note K V)) (t t' : K) (h : Whole t ns t') (ha : K)
    (hav : ((Stats.new : Stats K).afterAll ns).average = .ok ha) :
    ha * ((((Stats.new : Stats K).afterAll ns).nSteps : K)
      - ((Stats.new : Stats K).afterAll ns).nRejected) = t' - t := by
  rw [C95_average] at hav
  split at hav
  · cases hav
  · rename_i hne
    cases hav
    obtain ⟨c1, c2, -⟩ := C95_counts ns
    obtain ⟨h1, h2⟩ := countP_not_add ns
    rw [c1, c2, ← Nat.cast_sub h2, h1, whole_sum ns t t' h]
    have hl : ((ns.filter (·.accepted)).length : K) ≠ 0 := by
      rw [Nat.cast_ne_zero, ne_eq, List.length_eq_zero_iff]
      exact hne
    rw [div_mul_cancel₀ _ hl]
    ring

/-! ### Evaluations of the right-hand side -/

/-- Whether a Jacobian computation goes on after the events `l` -/
def underway (l : List RhsEv) : Bool :=
  (l.filterMap (fun e => match e with | .refresh b => some b | .rhs => none)).getLast?.getD false

/-- C95. All evaluations of the right-hand side are counted, and apart from them those made while a Jacobian was
being computed: the latest report before was that of the start of a computation. -/
theorem C95_rhs (l : List RhsEv) :
    let c := l.foldl RhsCount.after ⟨0, 0, false⟩
    c.total = l.count .rhs ∧
      c.forJ = (List.range l.length).countP (fun i => l[i]? = some .rhs && underway (l.take i)) ∧
      c.computing = underway l ∧ c.forJ ≤ c.total := by
  have key : ∀ (l : List RhsEv), let c := l.foldl RhsCount.after ⟨0, 0, false⟩
      c.total = l.count .rhs ∧
      c.forJ = (List.range l.length).countP (fun i => l[i]? = some .rhs && underway (l.take i)) ∧
      c.computing = underway l ∧ c.forJ ≤ c.total := by
    intro l
    induction l using List.reverseRecOn with
    | nil => decide
    | append_singleton l e ih =>
      obtain ⟨h1, h2, h3, h4⟩ := ih
      simp only [List.foldl_append, List.foldl_cons, List.foldl_nil, List.length_append,
        List.length_cons, List.length_nil, Nat.zero_add, List.range_succ, List.countP_append]
      have hc : (List.range l.length).countP
          (fun i => decide ((l ++ [e])[i]? = some RhsEv.rhs) && underway ((l ++ [e]).take i))
          = (List.range l.length).countP (fun i => l[i]? = some .rhs && underway (l.take i)) := by
        apply List.countP_congr
        intro i hi
        rw [List.mem_range] at hi
        rw [List.getElem?_append_left hi, List.take_append_of_le_length hi.le]
      rw [hc, ← h2]
      cases e with
      | rhs =>
        have hu : underway (l ++ [RhsEv.rhs]) = underway l := by
          unfold underway
          simp
        simp only [RhsCount.after, h1, h3, hu, List.count_append]
        refine ⟨by simp, ?_, trivial, ?_⟩
        · simp
          cases underway l <;> simp
        · split <;> omega
      | refresh b =>
        simp only [RhsCount.after, h1, List.count_append]
        refine ⟨by simp, by simp, ?_, by omega⟩
        unfold underway
        simp
  exact key l

/-- A Jacobian with two evaluations in it, one before and two after -/
example : [RhsEv.rhs, .refresh true, .rhs, .rhs, .refresh false, .rhs, .rhs].foldl RhsCount.after ⟨0, 0, false⟩
    = ⟨5, 2, false⟩ := by decide

end

section
variable {K V E : Type} [Field K] [LinearOrder K] [AddCommGroup V] [Module K V]

open RK in
/-- The calls made by the fixed-step explicit solvers without events are those of whole steps; so C95_elapsed
applies to their runs. -/
theorem C95_fixed (h t : K) (xs : Nat → V) (n : Nat) :
    Whole t ((List.range' 0 n).map (fun k =>
      (⟨t + ((k + 1 : Nat) : K) * h, xs (k + 1), h, true, false, Trunc.none⟩ : Note K V))) (t + n * h) := by
  have key : ∀ (n j : Nat), Whole (t + (j : K) * h) ((List.range' j n).map (fun k =>
      (⟨t + ((k + 1 : Nat) : K) * h, xs (k + 1), h, true, false, Trunc.none⟩ : Note K V)))
      (t + ((j + n : Nat) : K) * h) := by
    intro n
    induction n with
    | zero => intro j; simp [Whole]
    | succ n ih =>
      intro j
      rw [List.range'_succ, List.map_cons]
      refine ⟨by simp only [if_true]; push_cast; ring, ?_⟩
      have := ih (j + 1)
      rwa [show j + 1 + n = j + (n + 1) by omega] at this
  have := key n 0
  simpa using this

end

/-- `x' = -1` with the event `x = 0`, watched going down -/
def downhill : RK.Method ℚ ℚ (Event.Ctl ℚ × Unit) where
  co := RK.eulerMethod.co
  rhs _ _ := -1
  ec := some (Event.controller ⟨fun _ => 1, fun _ => [1], fun _ _ x => [x], fun _ _ _ x => ((), x),
    fun _ t x => (false, t, x)⟩)

/-- C95 is false for steps cut at events: Euler from 1 with step 2 on `x' = -1` and an event at 0. The step ends
at time 1, the average step size reported for it is 2. -/
theorem C95_elapsed_false : ∃ evs s', solveOde (erk downhill) ⟨some (.ok ()), none, none⟩ 1 1
      ⟨0, 1, none, RK.Output.mkEmpty, 2, (Event.Ctl.init, ()), []⟩ = some (evs, .ok s') ∧ s'.t = 1 ∧
    s'.x = 0 ∧ ∃ n, evs = [.started .statistics, .note n, .finished .statistics] ∧
      n.tr.truncated = true ∧ ((Stats.new : Stats ℚ).afterAll [n]).average = .ok 2 ∧
      ((Stats.new : Stats ℚ).afterAll [n]).nSteps = 1 ∧
      ((Stats.new : Stats ℚ).afterAll [n]).nRejected = 0 := by
  have h : ((solveOde (erk downhill) ⟨some (.ok ()), none, none⟩ 1 1
      ⟨0, 1, none, RK.Output.mkEmpty, 2, (Event.Ctl.init, ()), []⟩).map fun r =>
        (match r.1, r.2 with
          | [.started .statistics, .note n, .finished .statistics], .ok s' =>
            decide (s'.t = 1 ∧ s'.x = 0 ∧ n.tr.truncated = true ∧
              ((Stats.new : Stats ℚ).afterAll [n]).average = .ok 2 ∧
              ((Stats.new : Stats ℚ).afterAll [n]).nSteps = 1 ∧
              ((Stats.new : Stats ℚ).afterAll [n]).nRejected = 0)
          | _, _ => false)) = some true := by decide +kernel
  match hr : solveOde (erk downhill) ⟨some (.ok ()), none, none⟩ 1 1
      ⟨0, 1, none, RK.Output.mkEmpty, 2, (Event.Ctl.init, ()), []⟩ with
  | none => rw [hr] at h; cases h
  | some (evs, r) =>
    rw [hr] at h
    simp only [Option.map_some, Option.some.injEq] at h
    split at h
    · rename_i n s' 
      have := of_decide_eq_true h
      exact ⟨_, s', rfl, this.1, this.2.1, n, rfl, this.2.2⟩
    · cases h

/-- A rejected attempt between two accepted steps: counts, the average, and the elapsed time -/
example : Whole (0 : ℚ) ([⟨1, 5, 1, true, false, RK.Trunc.none⟩, ⟨1, 5, 4, false, true, RK.Trunc.none⟩,
      ⟨3, 6, 2, true, false, RK.Trunc.none⟩] : List (Note ℚ ℚ)) 3 ∧
    ((Stats.new : Stats ℚ).afterAll ([⟨1, 5, 1, true, false, RK.Trunc.none⟩,
      ⟨1, 5, 4, false, true, RK.Trunc.none⟩, ⟨3, 6, 2, true, false, RK.Trunc.none⟩] :
        List (Note ℚ ℚ))).average = .ok (3 / 2) := by
  refine ⟨?_, by decide +kernel⟩
  simp [Whole]
  norm_num

end Verif.Driver
