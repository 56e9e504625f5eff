import Verif.Driver.Model
import Verif.Witness
import Mathlib.Tactic.Linarith
import Mathlib.Tactic.FieldSimp
import Mathlib.Tactic.Ring
import Mathlib.Data.List.Chain
import Mathlib.Algebra.Order.Field.Basic

/-! # C45, C94: timed output -/

set_option linter.unusedSectionVars false

namespace Verif.Driver

open Verif.Res

section
variable {K V : Type} [Field K] [LinearOrder K] [IsStrictOrderedRing K]

/-- C45. One call with positive timing: it outputs exactly when forced or when the timing has passed since
the time of the last output, which then becomes the time of the call. -/
theorem C45_call (g : Gate K) (hT : 0 < g.timing) (cur : K) (force : Bool) :
    ((g.outputNow cur force).1 = true ↔ force = true ∨ g.report + g.timing ≤ cur) ∧
      (g.outputNow cur force).2.timing = g.timing ∧ (g.outputNow cur force).2.start = g.start ∧
      (g.outputNow cur force).2.report = if (g.outputNow cur force).1 then cur else g.report := by
  refine ⟨?_, ?_, ?_, ?_⟩
  · have : (g.report - g.start) / g.timing + 1 ≤ (cur - g.start) / g.timing ↔ g.report + g.timing ≤ cur := by
      rw [div_add_one hT.ne', div_le_div_iff_of_pos_right hT]
      constructor <;> intro h <;> linarith
    simp only [Gate.outputNow, Bool.or_eq_true, decide_eq_true_eq, this]
    constructor
    · rintro ((h | h) | h)
      · exact .inl h
      · exact absurd h (not_le.2 hT)
      · exact .inr h
    · rintro (h | h)
      · exact .inl (.inl h)
      · exact .inr h
  all_goals
    unfold Gate.outputNow
    dsimp only
    split <;> rfl

/-- C45. With timing zero or negative every call outputs. -/
theorem C45_always (g : Gate K) (hT : g.timing ≤ 0) (cur : K) (force : Bool) :
    (g.outputNow cur force).1 = true := by
  simp [Gate.outputNow, hT]

/-- A history of calls (time, forced): those that output, and the filter after them -/
def Gate.history (g : Gate K) : List (K × Bool) → List (K × Bool) × Gate K
  | [] => ([], g)
  | c :: cs =>
    let r := g.outputNow c.1 c.2
    let q := r.2.history cs
    (if r.1 then c :: q.1 else q.1, q.2)

theorem Gate.history_append (g : Gate K) (cs ds : List (K × Bool)) :
    (g.history (cs ++ ds)).1 = (g.history cs).1 ++ ((g.history cs).2.history ds).1 ∧
      (g.history (cs ++ ds)).2 = ((g.history cs).2.history ds).2 := by
  induction cs generalizing g with
  | nil => exact ⟨rfl, rfl⟩
  | cons c cs ih =>
    simp only [List.cons_append, Gate.history]
    obtain ⟨h1, h2⟩ := ih (g.outputNow c.1 c.2).2
    refine ⟨?_, h2⟩
    rw [h1]
    split <;> rfl

theorem Gate.history_inv (g : Gate K) (hT : 0 < g.timing) (cs : List (K × Bool)) :
    (g.history cs).2.timing = g.timing ∧
      (g.history cs).2.report = (((g.history cs).1.getLast?).map (·.1)).getD g.report := by
  induction cs generalizing g with
  | nil => exact ⟨rfl, rfl⟩
  | cons c cs ih =>
    obtain ⟨-, h2, -, h4⟩ := C45_call g hT c.1 c.2
    obtain ⟨a1, a2⟩ := ih (g.outputNow c.1 c.2).2 (by rw [h2]; exact hT)
    simp only [Gate.history]
    refine ⟨a1.trans h2, ?_⟩
    rw [a2, h4]
    cases (g.outputNow c.1 c.2).1 with
    | false => rfl
    | true =>
      simp only [if_true]
      cases hq : ((g.outputNow c.1 c.2).2.history cs).1 with
      | nil => rfl
      | cons a l => simp [List.getLast?_eq_getLast_of_ne_nil]

/-- C45. Any history of calls at or after the start time, then one more call: it outputs exactly when it is
forced, or when nothing has been output before, or when at least the timing has passed since the last
output. So two consecutive outputs of which the second is not forced are at least the timing apart, and
nothing is withheld longer than that. -/
theorem C45_history (timing start : K) (hT : 0 < timing) (cs : List (K × Bool)) (c : K × Bool)
    (hc : start ≤ c.1) :
    (((Gate.new timing start).history cs).2.outputNow c.1 c.2).1 = true ↔
      c.2 = true ∨ ((Gate.new timing start).history cs).1 = [] ∨
        ∃ a, ((Gate.new timing start).history cs).1.getLast? = some a ∧ a.1 + timing ≤ c.1 := by
  obtain ⟨h1, h2⟩ := (Gate.new timing start).history_inv hT cs
  have h1' : ((Gate.new timing start).history cs).2.timing = timing := h1
  rw [(C45_call _ (by rw [h1']; exact hT) c.1 c.2).1, h1', h2]
  cases hl : ((Gate.new timing start).history cs).1.getLast? with
  | none =>
    have : ((Gate.new timing start).history cs).1 = [] := List.getLast?_eq_none_iff.1 hl
    simp only [this, true_or, or_true, iff_true]
    right
    simp only [Option.map_none, Option.getD_none, Gate.new]
    linarith
  | some a =>
    have : ((Gate.new timing start).history cs).1 ≠ [] := by
      intro h; rw [h] at hl; cases hl
    simp only [this, false_or, Option.map_some, Option.getD_some, Option.some.injEq, exists_eq_left']

/-- C45. The outputs of a whole history, as a list: every output that is not forced comes at least the timing
after the one before it. -/
theorem C45_dense (timing start : K) (hT : 0 < timing) (cs : List (K × Bool)) :
    ((Gate.new timing start).history cs).1.IsChain (fun a b => b.2 = true ∨ a.1 + timing ≤ b.1) := by
  have gen : ∀ (cs : List (K × Bool)) (g : Gate K), 0 < g.timing →
      (g.history cs).1.IsChain (fun a b => b.2 = true ∨ a.1 + g.timing ≤ b.1) ∧
        (∀ b ∈ (g.history cs).1.head?, b.2 = true ∨ g.report + g.timing ≤ b.1) := by
    intro cs
    induction cs with
    | nil => intro g _; exact ⟨.nil, by simp [Gate.history]⟩
    | cons c cs ih =>
      intro g hg
      obtain ⟨b1, b2, b3, b4⟩ := C45_call g hg c.1 c.2
      obtain ⟨a1, a2⟩ := ih (g.outputNow c.1 c.2).2 (by rw [b2]; exact hg)
      rw [b2] at a1 a2
      simp only [Gate.history]
      cases hr : (g.outputNow c.1 c.2).1 with
      | true =>
        rw [hr] at b4
        simp only [if_true] at b4 ⊢
        rw [b4] at a2
        refine ⟨?_, ?_⟩
        · rw [List.isChain_cons]
          exact ⟨a2, a1⟩
        · intro b hb
          simp only [List.head?_cons, Option.mem_def, Option.some.injEq] at hb
          rw [← hb]
          exact b1.1 hr
      | false =>
        rw [hr] at b4
        simp only [Bool.false_eq_true, if_false] at b4 ⊢
        rw [b4] at a2
        exact ⟨a1, a2⟩
  exact (gen cs (Gate.new timing start) hT).1

/-- A history with timing 1 from time 0 with steps of 2/5 and one forced call. -/
example : ((Gate.new (1 : ℚ) 0).history [(2/5, false), (4/5, false), (6/5, true), (8/5, false), (2, false),
    (12/5, false)]).1 = [(2/5, false), (6/5, true), (12/5, false)] := by decide +kernel

/-! ### Rows and columns -/

/-- The rows of a report over a sequence of notifications -/
def Rows.afterAll (a : Rows K) (ns : List (Note K (List K))) : Res (Rows K) := ns.foldlM Rows.after a

/-- The columns of a report over a sequence of notifications -/
def Columns.afterAll (a : Columns K) (ns : List (Note K (List K))) : Columns K := ns.foldl Columns.after a

/-- The accepted steps: time and state -/
def acceptedOf (ns : List (Note K V)) : List (K × V) :=
  (ns.filter (·.accepted)).map (fun n => (n.time, n.state))

theorem row_ok (ix : List Nat) (x : List K) (h : ∀ i ∈ ix, i < x.length) :
    row ix x = .ok (ix.map (fun i => x.getD i 0)) := by
  unfold row
  induction ix with
  | nil => rfl
  | cons i ix ih =>
    rw [List.mapM_cons, ih (fun j hj => h j (List.mem_cons_of_mem _ hj))]
    have hi := h i (List.mem_cons_self ..)
    have : at' x i = .ok (x.getD i 0) := by
      simp [at', List.getElem?_eq_getElem hi, List.getD_eq_getElem?_getD]
    rw [this]
    rfl

/-- Greedy selection by time from a list of (time, state), given the time of the last selection -/
def select (timing : K) : K → List (K × V) → List (K × V)
  | _, [] => []
  | last, p :: l => if last + timing ≤ p.1 then p :: select timing p.1 l else select timing last l

theorem rows_after_all (ix : List Nat) (ns : List (Note K (List K))) (a : Rows K) (ha : a.ix = ix)
    (hT : 0 < a.gate.timing)
    (hx : ∀ n ∈ ns, n.accepted = true → ∀ i ∈ ix, i < n.state.length) :
    ∃ b, a.afterAll ns = .ok b ∧ b.header = a.header ∧ b.ix = ix ∧
      b.rows = a.rows ++ (select a.gate.timing a.gate.report (acceptedOf ns)).map
        (fun p => (p.1, ix.map (fun i => p.2.getD i 0))) := by
  induction ns generalizing a with
  | nil => exact ⟨a, rfl, rfl, ha, by simp [acceptedOf, select]⟩
  | cons n ns ih =>
    have hx' := fun m hm => hx m (List.mem_cons_of_mem _ hm)
    unfold Rows.afterAll
    rw [List.foldlM_cons]
    by_cases hacc : n.accepted = true
    · obtain ⟨b1, b2, b3, b4⟩ := C45_call a.gate hT n.time false
      by_cases ho : (a.gate.outputNow n.time false).1 = true
      · have hs : a.after n = .ok { a with
            gate := (a.gate.outputNow n.time false).2
            rows := a.rows ++ [(n.time, ix.map (fun i => n.state.getD i 0))] } := by
          unfold Rows.after
          rw [if_pos hacc]
          simp only
          rw [if_pos ho, ha, row_ok ix n.state (hx n (List.mem_cons_self ..) hacc)]
          rfl
        obtain ⟨b, c1, c2, c3, c4⟩ := ih { a with
            gate := (a.gate.outputNow n.time false).2
            rows := a.rows ++ [(n.time, ix.map (fun i => n.state.getD i 0))] } ha (by rw [b2]; exact hT) hx'
        refine ⟨b, ?_, c2, c3, ?_⟩
        · rw [hs]; exact c1
        · rw [c4]
          simp only
          rw [b2, b4, if_pos ho]
          have : acceptedOf (n :: ns) = (n.time, n.state) :: acceptedOf ns := by
            simp [acceptedOf, hacc]
          rw [this, select, if_pos (by simpa using b1.1 ho)]
          simp
      · have hs : a.after n = .ok { a with gate := (a.gate.outputNow n.time false).2 } := by
          unfold Rows.after
          rw [if_pos hacc]
          simp only
          rw [if_neg ho]
        obtain ⟨b, c1, c2, c3, c4⟩ := ih { a with gate := (a.gate.outputNow n.time false).2 } ha
          (by rw [b2]; exact hT) hx'
        refine ⟨b, ?_, c2, c3, ?_⟩
        · rw [hs]; exact c1
        · rw [c4]
          simp only
          rw [b2, b4, if_neg ho]
          have : acceptedOf (n :: ns) = (n.time, n.state) :: acceptedOf ns := by
            simp [acceptedOf, hacc]
          rw [this, select, if_neg]
          intro h
          exact ho (b1.2 (.inr h))
    · have hs : a.after n = .ok a := by
        unfold Rows.after
        rw [if_neg hacc]
      obtain ⟨b, c1, c2, c3, c4⟩ := ih a ha hT hx'
      refine ⟨b, ?_, c2, c3, ?_⟩
      · rw [hs]; exact c1
      · rw [c4]
        have : acceptedOf (n :: ns) = acceptedOf ns := by simp [acceptedOf, hacc]
        rw [this]

theorem select_spec (timing : K) (_hT : 0 < timing) (last : K) (l : List (K × V)) :
    (select timing last l).Sublist l ∧
      (select timing last l).IsChain (fun a b => a.1 + timing ≤ b.1) ∧
      (∀ p ∈ (select timing last l).head?, last + timing ≤ p.1) := by
  induction l generalizing last with
  | nil => exact ⟨.slnil, .nil, by simp [select]⟩
  | cons p l ih =>
    unfold select
    split
    · rename_i h
      obtain ⟨h1, h2, h3⟩ := ih p.1
      refine ⟨h1.cons_cons p, ?_, ?_⟩
      · rw [List.isChain_cons]; exact ⟨h3, h2⟩
      · intro q hq
        simp only [List.head?_cons, Option.mem_def, Option.some.injEq] at hq
        rw [← hq]; exact h
    · obtain ⟨h1, h2, h3⟩ := ih last
      exact ⟨h1.cons p, h2, h3⟩

/-- The last selected time is not before the time the selection started from. -/
theorem select_le_last (timing : K) (hT : 0 < timing) (b : K) (m : List (K × V)) :
    b ≤ (((b :: (select timing b m).map (·.1)).getLast?).getD b) := by
  have hc : (b :: (select timing b m).map (·.1)).IsChain (· ≤ ·) := by
    obtain ⟨-, s2, s3⟩ := select_spec timing hT b m
    rw [List.isChain_cons]
    refine ⟨?_, ?_⟩
    · intro y hy
      rw [List.head?_map] at hy
      obtain ⟨z, hz, rfl⟩ := Option.map_eq_some_iff.1 hy
      have := s3 z hz
      linarith
    · rw [List.isChain_map]
      exact s2.imp (fun a b h => by linarith)
  have hpw := List.isChain_iff_pairwise.1 hc
  rw [List.getLast?_eq_getLast_of_ne_nil (List.cons_ne_nil _ _), Option.getD_some]
  rcases List.mem_cons.1 (List.getLast_mem (List.cons_ne_nil b ((select timing b m).map (·.1)))) with h | h
  · exact h.ge
  · exact List.rel_of_pairwise_cons hpw h

/-- Nothing is withheld for long: when times never go back and grow by at most `H` from one accepted step to
the next, the selected times (after `last`) are less than `timing + H` apart, and less than the timing of
accepted time follows the last selection. -/
theorem select_gaps (timing H : K) (hT : 0 < timing) (last prev : K) (l : List (K × V))
    (hp : prev < last + timing)
    (hl : (prev :: l.map (·.1)).IsChain (fun a b => a ≤ b ∧ b ≤ a + H)) :
    (last :: (select timing last l).map (·.1)).IsChain (fun a b => b < a + timing + H) ∧
      (∀ q ∈ l, q.1 < (((last :: (select timing last l).map (·.1)).getLast?).getD last) + timing) := by
  induction l generalizing last prev with
  | nil => exact ⟨List.isChain_singleton _, by simp⟩
  | cons p l ih =>
    rw [List.map_cons, List.isChain_cons_cons] at hl
    obtain ⟨⟨h1, h2⟩, h3⟩ := hl
    unfold select
    split
    · rename_i h
      obtain ⟨i1, i2⟩ := ih p.1 p.1 (by linarith) h3
      refine ⟨?_, ?_⟩
      · rw [List.map_cons, List.isChain_cons_cons]
        exact ⟨by linarith, i1⟩
      · intro q hq
        have hlast : ((last :: (p :: select timing p.1 l).map (·.1)).getLast?).getD last
            = ((p.1 :: (select timing p.1 l).map (·.1)).getLast?).getD p.1 := by
          rw [List.map_cons, List.getLast?_cons_cons]
          simp [List.getLast?_eq_getLast_of_ne_nil]
        rw [hlast]
        rcases List.mem_cons.1 hq with rfl | hq
        · have := select_le_last timing hT q.1 l
          linarith
        · exact i2 q hq
    · rename_i h
      obtain ⟨i1, i2⟩ := ih last p.1 (not_le.1 h) h3
      refine ⟨i1, ?_⟩
      intro q hq
      rcases List.mem_cons.1 hq with rfl | hq
      · have hmono := select_le_last timing hT last l
        have := not_le.1 h
        linarith
      · exact i2 q hq

/-- C94, what holds of the rows. The header stays; the first row is the initial state; the other rows are
accepted steps, in order, each at least the timing after the one before it; the first accepted step is always
among them (times not before the start). -/
theorem C94_rows_partial (ix : List Nat) (n2 : Nat) (timing start : K) (hT : 0 < timing) (x : List K)
    (hx0 : ∀ i ∈ ix, i < x.length) (ns : List (Note K (List K)))
    (hx : ∀ n ∈ ns, n.accepted = true → ∀ i ∈ ix, i < n.state.length) :
    ∃ a b l, Rows.new ix n2 timing start x = .ok a ∧ a.afterAll ns = .ok b ∧
      b.header = ix.map (columnName n2) ∧
      b.rows = ((start, x) :: l).map (fun p => (p.1, ix.map (fun i => p.2.getD i 0))) ∧
      l.Sublist (acceptedOf ns) ∧ l.IsChain (fun a b => a.1 + timing ≤ b.1) ∧
      (∀ p ∈ (acceptedOf ns).head?, start ≤ p.1 → l.head? = some p) := by
  have h1 : Rows.new ix n2 timing start x = .ok ⟨ix, Gate.new timing start, ix.map (columnName n2),
      [(start, ix.map (fun i => x.getD i 0))]⟩ := by
    unfold Rows.new
    rw [row_ok ix x hx0]
    rfl
  obtain ⟨b, c1, c2, c3, c4⟩ := rows_after_all ix ns ⟨ix, Gate.new timing start, ix.map (columnName n2),
      [(start, ix.map (fun i => x.getD i 0))]⟩ rfl hT hx
  obtain ⟨s1, s2, -⟩ := select_spec timing hT (start - 2 * timing) (acceptedOf ns)
  refine ⟨_, b, select timing (start - 2 * timing) (acceptedOf ns), h1, c1, c2, by rw [c4]; rfl, s1, s2, ?_⟩
  intro p hp hs
  cases hl : acceptedOf ns with
  | nil => rw [hl] at hp; cases hp
  | cons q l =>
    rw [hl] at hp
    simp only [List.head?_cons, Option.mem_def, Option.some.injEq] at hp
    subst hp
    rw [select, if_pos (by linarith)]
    rfl

/-- C94. Rows are not too sparse: when accepted times never go back and grow by at most `H`, consecutive rows
are less than `timing + H` apart. -/
theorem C94_rows_gaps (ix : List Nat) (n2 : Nat) (timing start H : K) (hT : 0 < timing) (x : List K)
    (hx0 : ∀ i ∈ ix, i < x.length) (ns : List (Note K (List K)))
    (hx : ∀ n ∈ ns, n.accepted = true → ∀ i ∈ ix, i < n.state.length)
    (hH : (start :: (acceptedOf ns).map (·.1)).IsChain (fun a b => a ≤ b ∧ b ≤ a + H)) :
    ∃ a b, Rows.new ix n2 timing start x = .ok a ∧ a.afterAll ns = .ok b ∧
      (b.rows.map (·.1)).IsChain (fun a b => b < a + timing + H) ∧
      (∀ q ∈ acceptedOf ns, ∃ r ∈ b.rows.getLast?, q.1 < r.1 + timing) := by
  have h1 : Rows.new ix n2 timing start x = .ok ⟨ix, Gate.new timing start, ix.map (columnName n2),
      [(start, ix.map (fun i => x.getD i 0))]⟩ := by
    unfold Rows.new
    rw [row_ok ix x hx0]
    rfl
  obtain ⟨b, c1, c2, c3, c4⟩ := rows_after_all ix ns ⟨ix, Gate.new timing start, ix.map (columnName n2),
      [(start, ix.map (fun i => x.getD i 0))]⟩ rfl hT hx
  have hrows : b.rows.map (·.1) = start :: (select timing (start - 2 * timing) (acceptedOf ns)).map (·.1) := by
    rw [c4]; simp [Gate.new, Function.comp_def]
  refine ⟨_, b, h1, c1, ?_⟩
  have hlast : ∀ t, (b.rows.map (·.1)).getLast? = some t → ∃ r ∈ b.rows.getLast?, r.1 = t := by
    intro t ht
    rw [List.getLast?_map] at ht
    obtain ⟨r, hr, hrt⟩ := Option.map_eq_some_iff.1 ht
    exact ⟨r, hr, hrt⟩
  cases hl : acceptedOf ns with
  | nil =>
    rw [hl] at hrows
    rw [hrows]
    exact ⟨by simp [select], by simp⟩
  | cons p l =>
    rw [hl, List.map_cons, List.isChain_cons_cons] at hH
    obtain ⟨⟨g1, g2⟩, g3⟩ := hH
    rw [hl, select, if_pos (by linarith)] at hrows
    obtain ⟨i1, i2⟩ := select_gaps timing H hT p.1 p.1 l (by linarith) g3
    refine ⟨?_, ?_⟩
    · rw [hrows, List.map_cons, List.isChain_cons_cons]
      exact ⟨by linarith, i1⟩
    · intro q hq
      have hgl : (b.rows.map (·.1)).getLast?
          = some (((p.1 :: (select timing p.1 l).map (·.1)).getLast?).getD p.1) := by
        rw [hrows, List.map_cons, List.getLast?_cons_cons]
        simp [List.getLast?_eq_getLast_of_ne_nil]
      obtain ⟨r, hr, hrt⟩ := hlast _ hgl
      refine ⟨r, hr, ?_⟩
      rw [hrt]
      rcases List.mem_cons.1 hq with rfl | hq
      · have := select_le_last timing hT q.1 l
        linarith
      · exact i2 q hq

/-- C94 fails for the first two rows: the initial state is written without telling the time filter, so the
first step is written whatever its size. Timing 1, one step of 1/10. -/
theorem C94_rows_false : ∃ a b, Rows.new [0] 0 (1 : ℚ) 0 [5] = .ok a ∧
    a.afterAll [⟨1/10, [6], 1/10, true, false, RK.Trunc.none⟩] = .ok b ∧
    b.rows = [(0, [5]), (1/10, [6])] ∧
    ¬ b.rows.IsChain (fun a b => a.1 + 1 ≤ b.1) := by
  refine ⟨⟨[0], ⟨1, 0, -2⟩, [['x', '0']], [(0, [5])]⟩,
    ⟨[0], ⟨1, 0, 1/10⟩, [['x', '0']], [(0, [5]), (1/10, [6])]⟩, by decide +kernel, by decide +kernel,
    rfl, ?_⟩
  simp only [List.isChain_cons_cons, not_and_or]
  left
  norm_num

theorem columns_after_all (a : Columns K) (hT : 0 < a.gate.timing) (ns : List (Note K (List K))) :
    (a.afterAll ns).columns = a.columns ++
      (select a.gate.timing a.gate.report (acceptedOf ns)).take (a.maxSteps - a.columns.length) := by
  induction ns generalizing a with
  | nil => simp [acceptedOf, select, Columns.afterAll]
  | cons n ns ih =>
    unfold Columns.afterAll at ih ⊢
    rw [List.foldl_cons]
    by_cases hacc : n.accepted = true
    · have hcons : acceptedOf (n :: ns) = (n.time, n.state) :: acceptedOf ns := by
        simp [acceptedOf, hacc]
      rw [hcons]
      have hafter : a.after n = a.accum n.time n.state := by
        unfold Columns.after; rw [if_pos hacc]
      rw [hafter]
      by_cases hm : a.maxSteps ≤ a.columns.length
      · have : a.accum n.time n.state = a := by unfold Columns.accum; rw [if_pos hm]
        rw [this, ih a hT, Nat.sub_eq_zero_of_le hm]
        simp
      · obtain ⟨b1, b2, b3, b4⟩ := C45_call a.gate hT n.time false
        have hac : a.accum n.time n.state = { a with
            gate := (a.gate.outputNow n.time false).2
            columns := if (a.gate.outputNow n.time false).1 then a.columns ++ [(n.time, n.state)]
              else a.columns } := by
          unfold Columns.accum; rw [if_neg hm]
        rw [hac, ih _ (by simp only [b2]; exact hT)]
        simp only
        rw [b2, b4, select]
        by_cases ho : (a.gate.outputNow n.time false).1 = true
        · rw [if_pos ho, if_pos ho, if_pos (by simpa using b1.1 ho)]
          rw [List.append_assoc, List.singleton_append, List.length_append, List.length_singleton,
            show a.maxSteps - a.columns.length = (a.maxSteps - (a.columns.length + 1)) + 1 by omega,
            List.take_succ_cons]
        · rw [if_neg ho, if_neg ho, if_neg]
          intro h
          exact ho (b1.2 (.inr h))
    · have : a.after n = a := by unfold Columns.after; rw [if_neg hacc]
      rw [this, ih a hT]
      have : acceptedOf (n :: ns) = acceptedOf ns := by simp [acceptedOf, hacc]
      rw [this]

/-- C94 for the columns: they are the first `maxSteps` of the initial state and the accepted steps chosen by
time, so all of them, the first two included, are at least the timing apart. -/
theorem C94_columns (maxSteps : Nat) (timing start : K) (hT : 0 < timing) (x : List K)
    (ns : List (Note K (List K))) :
    ((Columns.new maxSteps timing start x).afterAll ns).columns.Sublist ((start, x) :: acceptedOf ns) ∧
      ((Columns.new maxSteps timing start x).afterAll ns).columns.length ≤ maxSteps ∧
      (0 < maxSteps → ((Columns.new maxSteps timing start x).afterAll ns).columns.head? = some (start, x)) ∧
      ((Columns.new maxSteps timing start x).afterAll ns).columns.IsChain (fun a b => a.1 + timing ≤ b.1) := by
  by_cases hm : maxSteps = 0
  · subst hm
    have h1 : Columns.new 0 timing start x = ⟨0, Gate.new timing start, []⟩ := rfl
    have h2 := columns_after_all (⟨0, Gate.new timing start, []⟩ : Columns K) hT ns
    rw [h1, h2]
    simp
  · have h1 : Columns.new maxSteps timing start x = ⟨maxSteps, ⟨timing, start, start⟩, [(start, x)]⟩ := by
      have hg := (C45_call (Gate.new timing start) hT start false)
      have ho : ((Gate.new timing start).outputNow start false).1 = true :=
        hg.1.2 (.inr (by simp only [Gate.new]; linarith))
      unfold Columns.new Columns.accum
      rw [if_neg (by simpa using hm)]
      simp only [ho, if_true, List.nil_append]
      congr 1
      unfold Gate.outputNow at ho ⊢
      simp only at ho ⊢
      rw [if_pos ho]
      rfl
    have h2 := columns_after_all (⟨maxSteps, ⟨timing, start, start⟩, [(start, x)]⟩ : Columns K) hT ns
    rw [h1, h2]
    obtain ⟨s1, s2, s3⟩ := select_spec timing hT start (acceptedOf ns)
    simp only [List.length_singleton, List.singleton_append]
    refine ⟨((List.take_sublist _ _).trans s1).cons_cons _, ?_, fun _ => rfl, ?_⟩
    · rw [List.length_cons, List.length_take]; omega
    · have hall : ((start, x) :: select timing start (acceptedOf ns)).IsChain
          (fun a b => a.1 + timing ≤ b.1) := by
        rw [List.isChain_cons]; exact ⟨s3, s2⟩
      have := hall.take (maxSteps - 1 + 1)
      rwa [List.take_succ_cons] at this

/-- C94. The columns are not too sparse either: up to the limit on their number, a step is left out only if
less than the timing has passed since the column before it. -/
theorem C94_columns_complete (maxSteps : Nat) (timing start : K) (hT : 0 < timing) (x : List K)
    (ns : List (Note K (List K))) (n : Note K (List K)) (hn : n.accepted = true) :
    let a := (Columns.new maxSteps timing start x).afterAll ns
    (a.after n).columns = if a.columns.length < maxSteps ∧
        (∀ c ∈ a.columns.getLast?, c.1 + timing ≤ n.time) then a.columns ++ [(n.time, n.state)]
      else a.columns := by
  have inv : ∀ (ns : List (Note K (List K))) (a : Columns K), 0 < a.gate.timing →
      (a.afterAll ns).maxSteps = a.maxSteps ∧ (a.afterAll ns).gate.timing = a.gate.timing ∧
        (a.columns = [] ∨ (∃ c, a.columns.getLast? = some c ∧ a.gate.report = c.1) →
          (a.afterAll ns).columns = [] ∧ (a.afterAll ns).gate.report = a.gate.report ∨
            ∃ c, (a.afterAll ns).columns.getLast? = some c ∧ (a.afterAll ns).gate.report = c.1) := by
    intro ns
    induction ns with
    | nil =>
      intro a _
      refine ⟨rfl, rfl, ?_⟩
      rintro (h | h)
      · exact .inl ⟨h, rfl⟩
      · exact .inr h
    | cons m ns ih =>
      intro a ha
      unfold Columns.afterAll at ih ⊢
      rw [List.foldl_cons]
      by_cases hacc : m.accepted = true ∧ ¬ a.maxSteps ≤ a.columns.length
      · obtain ⟨b1, b2, b3, b4⟩ := C45_call a.gate ha m.time false
        have hac : a.after m = { a with
            gate := (a.gate.outputNow m.time false).2
            columns := if (a.gate.outputNow m.time false).1 then a.columns ++ [(m.time, m.state)]
              else a.columns } := by
          unfold Columns.after Columns.accum; rw [if_pos hacc.1, if_neg hacc.2]
        obtain ⟨i1, i2, i3⟩ := ih (a.after m) (by rw [hac]; simp only [b2]; exact ha)
        refine ⟨i1.trans (by rw [hac]), i2.trans (by rw [hac]; exact b2), ?_⟩
        intro h
        by_cases ho : (a.gate.outputNow m.time false).1 = true
        · have h' := i3 (.inr ⟨(m.time, m.state), by rw [hac]; simp [ho], by rw [hac]; simp [b4, ho]⟩)
          rcases h' with ⟨h1, h2⟩ | h'
          · exfalso
            have hsub : (a.after m).columns.length ≤ (((ns.foldl Columns.after (a.after m))).columns).length := by
              have := columns_after_all (a.after m) (by rw [hac]; simp only [b2]; exact ha) ns
              unfold Columns.afterAll at this
              rw [this, List.length_append]
              omega
            rw [h1, hac] at hsub
            simp [ho] at hsub
          · exact .inr h'
        · have hac' : (a.after m).columns = a.columns ∧ (a.after m).gate.report = a.gate.report := by
            rw [hac]; simp [b4, ho]
          rcases i3 (by rw [hac'.1, hac'.2]; exact h) with ⟨h1, h2⟩ | h'
          · exact .inl ⟨h1, h2.trans hac'.2⟩
          · exact .inr h'
      · have : a.after m = a := by
          unfold Columns.after Columns.accum
          by_cases h1 : m.accepted = true
          · rw [if_pos h1, if_pos]
            by_contra h2
            exact hacc ⟨h1, h2⟩
          · rw [if_neg h1]
        rw [this]
        exact ih a ha
  intro a
  by_cases hm : maxSteps = 0
  · subst hm
    have hlen := (C94_columns 0 timing start hT x ns).2.1
    have hms : a.maxSteps = 0 := (inv ns (Columns.new 0 timing start x) hT).1
    rw [if_neg (by omega)]
    unfold Columns.after Columns.accum
    rw [if_pos hn, if_pos (by omega)]
  · have h1 : Columns.new maxSteps timing start x = ⟨maxSteps, ⟨timing, start, start⟩, [(start, x)]⟩ := by
      have hg := (C45_call (Gate.new timing start) hT start false)
      have ho : ((Gate.new timing start).outputNow start false).1 = true :=
        hg.1.2 (.inr (by simp only [Gate.new]; linarith))
      unfold Columns.new Columns.accum
      rw [if_neg (by simpa using hm)]
      simp only [ho, if_true, List.nil_append]
      congr 1
      unfold Gate.outputNow at ho ⊢
      simp only at ho ⊢
      rw [if_pos ho]
      rfl
    obtain ⟨j1, j2, j3⟩ := inv ns (Columns.new maxSteps timing start x) (by rw [h1]; exact hT)
    have j1 : a.maxSteps = maxSteps := by rw [show a.maxSteps = _ from j1, h1]
    have j2 : a.gate.timing = timing := by rw [show a.gate.timing = _ from j2, h1]
    have j3 : ∃ c, a.columns.getLast? = some c ∧ a.gate.report = c.1 := by
      rcases j3 (.inr ⟨(start, x), by rw [h1]; rfl, by rw [h1]⟩) with ⟨k1, -⟩ | k
      · have := (C94_columns maxSteps timing start hT x ns).2.2.1 (Nat.pos_of_ne_zero hm)
        rw [k1] at this
        cases this
      · exact k
    obtain ⟨c, k1, k2⟩ := j3
    obtain ⟨b1, b2, b3, b4⟩ := C45_call a.gate (by rw [j2]; exact hT) n.time false
    rw [j2, k2] at b1
    unfold Columns.after Columns.accum
    rw [if_pos hn, j1, k1]
    simp only [Option.mem_def, Option.some.injEq, forall_eq']
    by_cases hl : maxSteps ≤ a.columns.length
    · rw [if_pos hl, if_neg (by omega)]
    · rw [if_neg hl]
      simp only
      by_cases ho : (a.gate.outputNow n.time false).1 = true
      · rw [if_pos ho, if_pos ⟨by omega, by simpa using b1.1 ho⟩]
      · rw [if_neg ho, if_neg]
        rintro ⟨-, h⟩
        exact ho (b1.2 (.inr h))

/-- At most three columns, timing 1, steps of 2/5. -/
example : ((Columns.new 3 (1 : ℚ) 0 [7]).afterAll
      ((List.range 12).map fun k => ⟨(k + 1) * (2/5), [(k : ℚ)], 2/5, true, false, RK.Trunc.none⟩)).columns
    = [(0, [7]), (6/5, [2]), (12/5, [5])] := by decide +kernel

end

end Verif.Driver
