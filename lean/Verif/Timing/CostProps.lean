import Verif.Timing.Props
import Mathlib.Data.List.Perm.Subperm

/-
C132: how often the descent directions and the Rosenbrock solvers decompose a matrix, which is what the choice between them is
about.
-/

namespace Verif.Timing

variable (clk : Nat → Nat)

/-! ## Operations of a factorizer -/

theorem number_measure (log : Log) (op o : Op) (s : LuStats) :
    number (measure clk log op s).2 o = number log o + if op = o then 1 else 0 := by
  show number (log ++ [(op, clk log.length)]) o = _
  rw [number_append]
  congr 1
  by_cases h : op = o <;> simp [number, h]

@[simp] theorem setMatrix_factorized (n : Nat) (l : Lu) (log : Log) : (l.setMatrix clk n log).1.factorized = false := rfl

@[simp] theorem setMatrix_number (n : Nat) (l : Lu) (log : Log) (o : Op) :
    number (l.setMatrix clk n log).2 o = number log o + if .setMatrix = o then 1 else 0 := number_measure clk log .setMatrix o l.stats

@[simp] theorem setMatrixFast_factorized (n : Nat) (fits : Bool) (l : Lu) (log : Log) :
    (l.setMatrixFast clk n fits log).1.factorized = false := by
  cases fits <;> rfl

@[simp] theorem setMatrixFast_number (n : Nat) (fits : Bool) (l : Lu) (log : Log) (o : Op) :
    number (l.setMatrixFast clk n fits log).2 o =
      number log o + (if fits then 0 else if .setMatrix = o then 1 else 0) + if .setMatrixFast = o then 1 else 0 := by
  cases fits
  · show number (measure clk (l.setMatrix clk n log).2 .setMatrixFast (l.setMatrix clk n log).1.stats).2 o = _
    rw [number_measure, setMatrix_number]
    rfl
  · exact number_measure clk log .setMatrixFast o l.stats

@[simp] theorem refresh_factorized (i : In) (l : Lu) (log : Log) : (l.refresh clk i log).1.factorized = false := by
  unfold Lu.refresh; split <;> simp

theorem refresh_number (i : In) (l : Lu) (log : Log) (o : Op) (h₁ : o ≠ .setMatrix) (h₂ : o ≠ .setMatrixFast) :
    number (l.refresh clk i log).2 o = number log o := by
  unfold Lu.refresh; split <;> simp [h₁.symm, h₂.symm]

@[simp] theorem factorize_factorized (l : Lu) (log : Log) : (l.factorize clk log).1.factorized = true := by
  unfold Lu.factorize; split
  · assumption
  · rfl

@[simp] theorem factorize_number (l : Lu) (log : Log) (o : Op) :
    number (l.factorize clk log).2 o = number log o + if l.factorized then 0 else if .factorize = o then 1 else 0 := by
  unfold Lu.factorize; split
  · rfl
  · exact number_measure clk log .factorize o l.stats

@[simp] theorem solve_factorized (l : Lu) (log : Log) : (l.solve clk log).1.factorized = true := factorize_factorized ..

@[simp] theorem solve_number (l : Lu) (log : Log) (o : Op) :
    number (l.solve clk log).2 o =
      number log o + (if l.factorized then 0 else if .factorize = o then 1 else 0) + if .solve = o then 1 else 0 := by
  show number (measure clk (l.factorize clk log).2 .solve (l.factorize clk log).1.stats).2 o = _
  rw [number_measure, factorize_number]

@[simp] theorem updateHart_factorized (l : Lu) (log : Log) : (l.updateHart clk log).1.factorized = true := factorize_factorized ..

@[simp] theorem updateHart_number (l : Lu) (log : Log) (o : Op) :
    number (l.updateHart clk log).2 o =
      number log o + (if l.factorized then 0 else if .factorize = o then 1 else 0) + if .update = o then 1 else 0 := by
  show number (measure clk (l.factorize clk log).2 .update (l.factorize clk log).1.stats).2 o = _
  rw [number_measure, factorize_number]

/-! ## Directions -/

/-- How many directions are computed -/
def computes (cs : List Call) : Nat := cs.countP fun c => match c with | .compute _ => true | _ => false

/-- How many directions are computed as the first ones of an iteration -/
def firsts (cs : List Call) : Nat := cs.countP fun c => match c with | .compute i => i.iteration == 0 | _ => false

/-- How many hard resets there are -/
def hardResets (cs : List Call) : Nat := cs.countP fun c => match c with | .reset true => true | _ => false

theorem work_solve (i : In) (d : Dir) (l : Lu) (log : Log) :
    number (d.work clk i l log).2 .solve = number log .solve + 1 := by
  unfold Dir.work
  cases d.kind
  · simp [refresh_number]
  · by_cases h : l.factorized = true <;> simp [h]
  · by_cases h : l.factorized = true <;> by_cases h' : d.havePrev = true <;> simp [h, h']
  · simp
  · simp [refresh_number]
  · simp only [solve_number]
    split <;> split <;> simp [refresh_number]

theorem work_factorized (i : In) (d : Dir) (l : Lu) (log : Log) : (d.work clk i l log).1.factorized = true := by
  unfold Dir.work
  cases d.kind <;> simp

/-- **C132, solves.** Every direction computed costs one solution of a linear system, whatever the kind of the direction. -/
theorem C132_solves (cs : List Call) (d : Dir) (log : Log) :
    number (Dir.calls clk cs d log).2 .solve = number log .solve + computes cs := by
  induction cs generalizing d log with
  | nil => rfl
  | cons c cs ih =>
    show number (Dir.calls clk cs (d.call clk log c).1 (d.call clk log c).2).2 .solve = _
    rw [ih]
    cases c with
    | compute i =>
      show number (d.work clk i d.lu.clear log).2 .solve + _ = _
      rw [work_solve]
      simp [computes]
      omega
    | reset hard => simp [Dir.call, computes]
    | reportSuccess s => simp [Dir.call, computes]

/-- What calls do to the kind of a direction: nothing -/
theorem call_kind (d : Dir) (log : Log) (c : Call) : (d.call clk log c).1.kind = d.kind := by cases c <;> rfl

/-- **C132, every time.** The simple, the Broyden and the fake Broyden direction decompose a matrix for every direction they compute:
updating the Jacobian saves evaluations of the right-hand side but no decomposition. -/
theorem C132_every (cs : List Call) (d : Dir) (hk : d.kind = .simple ∨ d.kind = .broyden ∨ d.kind = .fakeBroyden) (log : Log) :
    number (Dir.calls clk cs d log).2 .factorize = number log .factorize + computes cs := by
  induction cs generalizing d log with
  | nil => rfl
  | cons c cs ih =>
    show number (Dir.calls clk cs (d.call clk log c).1 (d.call clk log c).2).2 .factorize = _
    rw [ih _ (by rw [call_kind]; exact hk)]
    cases c with
    | compute i =>
      show number (d.work clk i d.lu.clear log).2 .factorize + _ = _
      have : number (d.work clk i d.lu.clear log).2 .factorize = number log .factorize + 1 := by
        unfold Dir.work
        rcases hk with hk | hk | hk <;> rw [hk] <;> simp [refresh_number]
      rw [this]
      simp [computes]
      omega
    | reset hard => simp [Dir.call, computes]
    | reportSuccess s => simp [Dir.call, computes]

/-- How many directions are computed with no matrix set before, or none since a hard reset; `have'` tells whether there is one at the
beginning -/
def fresh : List Call → Bool → Nat
  | [], _ => 0
  | .compute _ :: cs, have' => (if have' then 0 else 1) + fresh cs true
  | .reset hard :: cs, have' => fresh cs (have' && !hard)
  | .reportSuccess _ :: cs, have' => fresh cs have'

/-- How many of the other directions are computed with a matrix that does not fit the stencil -/
def misfits : List Call → Bool → Nat
  | [], _ => 0
  | .compute i :: cs, have' => (if have' && !i.fits then 1 else 0) + misfits cs true
  | .reset hard :: cs, have' => misfits cs (have' && !hard)
  | .reportSuccess _ :: cs, have' => misfits cs have'

/-- **C132, the stencil is kept.** The simple and the fake Broyden direction prepare the stencil of the factorizer for the first
direction, for the first one after each hard reset, and when the elements of the matrix do not fit it; for all other directions they
set the elements only. -/
theorem C132_stencil (cs : List Call) (hn : ∀ i, .compute i ∈ cs → i.n ≠ 0) (d : Dir) (hk : d.kind = .simple ∨ d.kind = .fakeBroyden)
    (log : Log) :
    number (Dir.calls clk cs d log).2 .setMatrix =
      number log .setMatrix + fresh cs (d.lu.size != 0) + misfits cs (d.lu.size != 0) ∧
    number (Dir.calls clk cs d log).2 .setMatrixFast + fresh cs (d.lu.size != 0) = number log .setMatrixFast + computes cs := by
  induction cs generalizing d log with
  | nil => exact ⟨rfl, rfl⟩
  | cons c cs ih =>
    show number (Dir.calls clk cs (d.call clk log c).1 (d.call clk log c).2).2 .setMatrix = _ ∧
      number (Dir.calls clk cs (d.call clk log c).1 (d.call clk log c).2).2 .setMatrixFast + _ = _
    obtain ⟨k1, k2⟩ := ih (fun i hi => hn i (List.mem_cons_of_mem _ hi)) (d.call clk log c).1 (by rw [call_kind]; exact hk)
      (d.call clk log c).2
    rw [k1]
    cases c with
    | compute i =>
      have hi := hn i (List.mem_cons_self ..)
      have hsize : ∀ (l : Lu) (log : Log), (l.solve clk log).1.size = l.size := fun l log => by
        show (l.factorize clk log).1.size = _
        unfold Lu.factorize; split <;> rfl
      have hfast : ∀ (l : Lu) (log : Log), (l.setMatrixFast clk i.n i.fits log).1.size = if i.fits then l.size else i.n :=
        fun l log => by cases h : i.fits <;> rfl
      have hw : (d.work clk i d.lu.clear log).1.size ≠ 0 ∧
          number (d.work clk i d.lu.clear log).2 .setMatrix = number log .setMatrix +
            (if d.lu.size = 0 then 1 else if i.fits then 0 else 1) ∧
          number (d.work clk i d.lu.clear log).2 .setMatrixFast = number log .setMatrixFast +
            (if d.lu.size = 0 then 0 else 1) := by
        have e : d.work clk i d.lu.clear log = (d.lu.clear.refresh clk i log).1.solve clk (d.lu.clear.refresh clk i log).2 := by
          unfold Dir.work
          rcases hk with hk | hk <;> rw [hk]
        rw [e, hsize]
        unfold Lu.refresh
        have hc : d.lu.clear.size = d.lu.size := rfl
        by_cases h0 : d.lu.size = 0
        · rw [if_pos (hc.trans h0)]
          simp only [solve_number, setMatrix_number, h0]
          exact ⟨hi, by simp, by simp⟩
        · rw [if_neg (by rw [hc]; exact h0), hfast]
          simp only [solve_number, setMatrixFast_number, h0]
          cases i.fits <;> simp [hc, h0, hi]
      have hd : (d.call clk log (.compute i)).1.lu = (d.work clk i d.lu.clear log).1 := by
        show (if d.kind = .broyden then d.lu else (d.work clk i d.lu.clear log).1) = _
        rw [if_neg (by rcases hk with hk | hk <;> simp [hk])]
      have hl : (d.call clk log (.compute i)).2 = (d.work clk i d.lu.clear log).2 := rfl
      have hb : ((d.work clk i d.lu.clear log).1.size != 0) = true := by simpa using hw.1
      rw [hd, hl, hb, hw.2.1]
      rw [hd, hl, hb, hw.2.2] at k2
      have hcomp : computes (.compute i :: cs) = computes cs + 1 := by simp [computes]
      rw [hcomp]
      simp only [fresh, misfits]
      by_cases h0 : d.lu.size = 0
      · simp only [h0, if_true, bne_self_eq_false, Bool.false_and, Bool.false_eq_true, if_false] at k2 ⊢
        omega
      · have : (d.lu.size != 0) = true := by simpa using h0
        simp only [h0, this, if_true, if_false, Bool.true_and] at k2 ⊢
        cases i.fits <;> simp <;> omega
    | reset hard =>
      have e : ((d.call clk log (.reset hard)).1.lu.size != 0) = ((d.lu.size != 0) && !hard) := by
        show ((if hard && d.kind ≠ .broyden then ({} : Lu) else d.lu).size != 0) = _
        cases hard
        · simp
        · rw [if_pos (by rcases hk with hk | hk <;> simp [hk])]
          simp
      have hcomp : computes (.reset hard :: cs) = computes cs := by simp [computes]
      rw [e] at k2 ⊢
      rw [hcomp]
      simp only [fresh, misfits]
      exact ⟨rfl, k2⟩
    | reportSuccess s =>
      have hcomp : computes (.reportSuccess s :: cs) = computes cs := by simp [computes]
      rw [hcomp]
      simp only [fresh, misfits]
      exact ⟨rfl, k2⟩

/-- Two solutions of two iterations each by the simple direction, with a hard reset between them -/
example :
    let i : In := ⟨0, true, 3, true, true⟩
    let cs : List Call := [.compute i, .compute i, .reset true, .compute i, .compute { i with fits := false }]
    (∀ i, .compute i ∈ cs → i.n ≠ 0) ∧ fresh cs false = 2 ∧ misfits cs false = 1 ∧ computes cs = 4 := by
  intro i cs
  refine ⟨fun j hj => ?_, rfl, rfl, rfl⟩
  simp only [cs, List.mem_cons, Call.compute.injEq, reduceCtorEq, List.not_mem_nil, or_false, false_or] at hj
  rcases hj with rfl | rfl | rfl | rfl <;> simp [i]

/-- 1 if there is no decomposition at hand -/
def owed (l : Lu) : Nat := if l.factorized then 0 else 1

theorem owed_le (l : Lu) : owed l ≤ 1 := by unfold owed; split <;> omega

theorem clear_factorized (l : Lu) : l.clear.factorized = l.factorized := rfl

theorem once_work (i : In) (d : Dir) (hk : d.kind = .const ∨ d.kind = .hart) (l : Lu) (log : Log) :
    number (d.work clk i l log).2 .factorize = number log .factorize + owed l ∧
    number (d.work clk i l log).2 .setMatrix = number log .setMatrix + owed l ∧
    number (d.work clk i l log).2 .setMatrixFast = number log .setMatrixFast := by
  unfold Dir.work owed
  rcases hk with hk | hk <;> rw [hk]
  · by_cases h : l.factorized = true <;> simp [h]
  · by_cases h : l.factorized = true <;> by_cases h' : d.havePrev = true <;> simp [h, h']

theorem once_calls (cs : List Call) : ∀ (d : Dir) (_ : d.kind = .const ∨ d.kind = .hart) (log : Log),
    number (Dir.calls clk cs d log).2 .factorize ≤ number log .factorize + owed d.lu + hardResets cs ∧
    number (Dir.calls clk cs d log).2 .setMatrix ≤ number log .setMatrix + owed d.lu + hardResets cs ∧
    number (Dir.calls clk cs d log).2 .setMatrixFast = number log .setMatrixFast := by
  induction cs with
  | nil =>
    intro d _ log
    have h : (Dir.calls clk [] d log).2 = log := rfl
    rw [h]
    omega
  | cons c cs ih =>
    intro d hk log
    have := ih (d.call clk log c).1 (by rw [call_kind]; exact hk) (d.call clk log c).2
    show number (Dir.calls clk cs (d.call clk log c).1 (d.call clk log c).2).2 .factorize ≤ _ ∧
      number (Dir.calls clk cs (d.call clk log c).1 (d.call clk log c).2).2 .setMatrix ≤ _ ∧
      number (Dir.calls clk cs (d.call clk log c).1 (d.call clk log c).2).2 .setMatrixFast = _
    cases c with
    | compute i =>
      have w := once_work clk i d hk d.lu.clear log
      have f : owed (d.call clk log (.compute i)).1.lu = 0 := by
        have : (d.call clk log (.compute i)).1.lu = (d.work clk i d.lu.clear log).1 := by
          show (if d.kind = .broyden then d.lu else (d.work clk i d.lu.clear log).1) = _
          rcases hk with hk | hk <;> simp [hk]
        rw [this, owed, work_factorized]
        rfl
      have e : (d.call clk log (.compute i)).2 = (d.work clk i d.lu.clear log).2 := rfl
      rw [e] at this
      rw [e]
      have g : owed d.lu.clear = owed d.lu := rfl
      have c : hardResets (.compute i :: cs) = hardResets cs := by simp [hardResets]
      rw [c]
      omega
    | reset hard =>
      have e : (d.call clk log (.reset hard)).2 = log := rfl
      rw [e] at this
      rw [e]
      cases hard with
      | true =>
        have c : hardResets (.reset true :: cs) = hardResets cs + 1 := by simp [hardResets]
        have := owed_le (d.call clk log (.reset true)).1.lu
        rw [c]
        omega
      | false =>
        have c : hardResets (.reset false :: cs) = hardResets cs := by simp [hardResets]
        have f : (d.call clk log (.reset false)).1.lu = d.lu := rfl
        rw [f] at this
        rw [c]
        omega
    | reportSuccess s =>
      have c : hardResets (.reportSuccess s :: cs) = hardResets cs := by simp [hardResets]
      rw [c]
      exact this

/-- **C132, once.** The direction with a constant Jacobian and the Hart direction set and decompose one matrix, and one more for every
hard reset, whatever the number of directions computed. -/
theorem C132_once (cs : List Call) (k : Kind) (hk : k = .const ∨ k = .hart) (lazy : Nat) (log : Log) :
    let r := Dir.calls clk cs { kind := k, lazyIterations := lazy } log
    number r.2 .factorize ≤ number log .factorize + 1 + hardResets cs ∧
    number r.2 .setMatrix ≤ number log .setMatrix + 1 + hardResets cs ∧
    number r.2 .setMatrixFast = number log .setMatrixFast :=
  once_calls clk cs { kind := k, lazyIterations := lazy } hk log

/-- What the calls ask of a direction that keeps its decomposition: how many times there is none when a direction is computed, and how
many times there is one and a direction was computed since the last reset. `have_`: there is one; `prev`: there was one. -/
def kept : List Call → (have_ prev : Bool) → Nat × Nat
  | [], _, _ => (0, 0)
  | .compute _ :: cs, have_, prev =>
    let (a, b) := kept cs true true
    ((if have_ then 0 else 1) + a, (if have_ && prev then 1 else 0) + b)
  | .reset hard :: cs, have_, _ => kept cs (have_ && !hard) false
  | .reportSuccess _ :: cs, have_, prev => kept cs have_ prev

theorem kept_work (i : In) (d : Dir) (hk : d.kind = .const ∨ d.kind = .hart) (l : Lu) (log : Log) :
    number (d.work clk i l log).2 .update =
      number log .update + if d.kind = .hart ∧ l.factorized = true ∧ d.havePrev = true then 1 else 0 := by
  unfold Dir.work
  rcases hk with hk | hk <;> rw [hk]
  · by_cases h : l.factorized = true <;> simp [h]
  · by_cases h : l.factorized = true <;> by_cases h' : d.havePrev = true <;> simp [h, h']

/-- **C132, exactly.** The direction with a constant Jacobian and the Hart direction decompose a matrix exactly when there is none: for
the first direction and for the first one after a hard reset. The Hart direction updates the factors exactly for the directions that
follow another one without a reset in between; soft resets only skip an update. -/
theorem C132_exactly (cs : List Call) (k : Kind) (hk : k = .const ∨ k = .hart) (lazy : Nat) (log : Log) :
    let r := Dir.calls clk cs { kind := k, lazyIterations := lazy } log
    number r.2 .factorize = number log .factorize + (kept cs false false).1 ∧
    number r.2 .setMatrix = number log .setMatrix + (kept cs false false).1 ∧
    number r.2 .update = number log .update + if k = .hart then (kept cs false false).2 else 0 := by
  have main : ∀ (cs : List Call) (d : Dir) (_ : d.kind = .const ∨ d.kind = .hart) (log : Log),
      number (Dir.calls clk cs d log).2 .factorize = number log .factorize + (kept cs d.lu.factorized d.havePrev).1 ∧
      number (Dir.calls clk cs d log).2 .setMatrix = number log .setMatrix + (kept cs d.lu.factorized d.havePrev).1 ∧
      number (Dir.calls clk cs d log).2 .update =
        number log .update + if d.kind = .hart then (kept cs d.lu.factorized d.havePrev).2 else 0 := by
    intro cs
    induction cs with
    | nil => intro d _ log; simp [Dir.calls, kept]
    | cons c cs ih =>
      intro d hk log
      have := ih (d.call clk log c).1 (by rw [call_kind]; exact hk) (d.call clk log c).2
      rw [call_kind] at this
      show number (Dir.calls clk cs (d.call clk log c).1 (d.call clk log c).2).2 .factorize = _ ∧
        number (Dir.calls clk cs (d.call clk log c).1 (d.call clk log c).2).2 .setMatrix = _ ∧
        number (Dir.calls clk cs (d.call clk log c).1 (d.call clk log c).2).2 .update = _
      cases c with
      | compute i =>
        obtain ⟨w1, w2, -⟩ := once_work clk i d hk d.lu.clear log
        have w3 := kept_work clk i d hk d.lu.clear log
        have f : (d.call clk log (.compute i)).1.lu.factorized = true := by
          have : (d.call clk log (.compute i)).1.lu = (d.work clk i d.lu.clear log).1 := by
            show (if d.kind = .broyden then d.lu else (d.work clk i d.lu.clear log).1) = _
            rcases hk with hk | hk <;> simp [hk]
          rw [this, work_factorized]
        have g : (d.call clk log (.compute i)).1.havePrev = true := rfl
        have e : (d.call clk log (.compute i)).2 = (d.work clk i d.lu.clear log).2 := rfl
        rw [e, f, g, w1, w2, w3] at this
        rw [e]
        have o : owed d.lu.clear = if d.lu.factorized then 0 else 1 := rfl
        rw [o] at this
        rw [clear_factorized] at this
        obtain ⟨t1, t2, t3⟩ := this
        refine ⟨by rw [t1]; simp only [kept]; omega, by rw [t2]; simp only [kept]; omega, ?_⟩
        rw [t3]
        simp only [kept]
        by_cases h1 : d.kind = .hart <;> by_cases h2 : d.lu.factorized = true <;> by_cases h3 : d.havePrev = true <;>
          simp [h1, h2, h3] <;> omega
      | reset hard =>
        have e : (d.call clk log (.reset hard)).2 = log := rfl
        have g : (d.call clk log (.reset hard)).1.havePrev = false := rfl
        have f : (d.call clk log (.reset hard)).1.lu.factorized = (d.lu.factorized && !hard) := by
          show (if (hard && decide (d.kind ≠ .broyden)) = true then ({} : Lu) else d.lu).factorized = _
          rcases hk with hk | hk <;> cases hard <;> simp [hk]
        rw [e, f, g] at this
        rw [e]
        exact this
      | reportSuccess s => exact this
  exact main cs { kind := k, lazyIterations := lazy } hk log

/-- Two directions, a soft reset, two more: one decomposition and two updates -/
example :
    let cs : List Call := [.compute ⟨0, true, 2, true, true⟩, .compute ⟨1, false, 2, true, true⟩, .reset false,
      .compute ⟨0, false, 2, true, true⟩, .compute ⟨1, false, 2, true, true⟩]
    let r := Dir.calls (fun _ => 1) cs { kind := .hart } []
    number r.2 .factorize = 1 ∧ number r.2 .update = 2 := by
  decide

/-- **C132, in the first iteration.** The lazy direction decomposes a matrix only for the first direction of a Newton solution, besides
one for every hard reset. -/
theorem C132_lazy (cs : List Call) (d : Dir) (hk : d.kind = .lazyFakeBroyden) (log : Log) :
    number (Dir.calls clk cs d log).2 .factorize ≤ number log .factorize + 1 + firsts cs + hardResets cs := by
  have main : ∀ (cs : List Call) (d : Dir) (_ : d.kind = .lazyFakeBroyden) (log : Log),
      number (Dir.calls clk cs d log).2 .factorize ≤ number log .factorize + owed d.lu + firsts cs + hardResets cs := by
    intro cs
    induction cs with
    | nil => intro d _ log; simp only [Dir.calls]; omega
    | cons c cs ih =>
      intro d hk log
      have := ih (d.call clk log c).1 (by rw [call_kind]; exact hk) (d.call clk log c).2
      show number (Dir.calls clk cs (d.call clk log c).1 (d.call clk log c).2).2 .factorize ≤ _
      cases c with
      | compute i =>
        have f : owed (d.call clk log (.compute i)).1.lu = 0 := by
          have : (d.call clk log (.compute i)).1.lu = (d.work clk i d.lu.clear log).1 := by
            show (if d.kind = .broyden then d.lu else (d.work clk i d.lu.clear log).1) = _
            simp [hk]
          rw [this, owed, work_factorized]
          rfl
        have e : (d.call clk log (.compute i)).2 = (d.work clk i d.lu.clear log).2 := rfl
        rw [e] at this
        rw [e]
        have c : hardResets (.compute i :: cs) = hardResets cs := by simp [hardResets]
        rw [c]
        have w : number (d.work clk i d.lu.clear log).2 .factorize ≤
            number log .factorize + owed d.lu + if i.iteration = 0 then 1 else 0 := by
          unfold Dir.work
          rw [hk]
          by_cases h : i.iteration = 0
          · have : ∀ (l : Lu) (log' : Log), number log' .factorize = number log .factorize →
                number (l.solve clk log').2 .factorize ≤ number log .factorize + owed d.lu + 1 := by
              intro l log' hl
              rw [solve_number, hl]
              split <;> simp
              omega
            simp only [h, if_true]
            apply this
            split <;> split <;> simp [refresh_number]
          · have h' : (i.iteration == 0) = false := by simpa using h
            simp only [h', Bool.false_and, Bool.false_eq_true, if_false, h, solve_number, clear_factorized, owed]
            split <;> simp
        have n : firsts (.compute i :: cs) = firsts cs + if i.iteration = 0 then 1 else 0 := by
          simp [firsts, List.countP_cons]
        rw [n]
        omega
      | reset hard =>
        have e : (d.call clk log (.reset hard)).2 = log := rfl
        rw [e] at this
        rw [e]
        have n : firsts (.reset hard :: cs) = firsts cs := by simp [firsts]
        rw [n]
        cases hard with
        | true =>
          have c : hardResets (.reset true :: cs) = hardResets cs + 1 := by simp [hardResets]
          have := owed_le (d.call clk log (.reset true)).1.lu
          rw [c]
          omega
        | false =>
          have c : hardResets (.reset false :: cs) = hardResets cs := by simp [hardResets]
          have f : (d.call clk log (.reset false)).1.lu = d.lu := rfl
          rw [f] at this
          rw [c]
          omega
      | reportSuccess s =>
        have c : hardResets (.reportSuccess s :: cs) = hardResets cs := by simp [hardResets]
        have n : firsts (.reportSuccess s :: cs) = firsts cs := by simp [firsts]
        rw [c, n]
        exact this
  have := main cs d hk log
  have := owed_le d.lu
  omega

/-- What the calls ask of the lazy direction: for how many directions a matrix has to be decomposed. `done`: one was since the last hard
reset; `took`: how many iterations the last solution took, if it was a success and there was no hard reset since; `now`: how many
iterations the present one took so far. -/
def lazily (lazy : Nat) : List Call → (done : Bool) → (took : Option Nat) → (now : Nat) → Nat
  | [], _, _, _ => 0
  | .compute i :: cs, done, took, _ =>
    (if done = false ∨ (i.iteration = 0 ∧ (i.jEmpty = true ∨ took.all (lazy < ·))) then 1 else 0) +
      lazily lazy cs true took (i.iteration + 1)
  | .reset hard :: cs, done, took, now => lazily lazy cs (done && !hard) (if hard then none else took) now
  | .reportSuccess s :: cs, done, _, now => lazily lazy cs done (if s then some now else none) now

/-- What the direction means to do, by how many iterations the last solution took -/
def actionOf (lazy : Nat) : Option Nat → Action
  | none => .recompute
  | some k => if k ≤ lazy then .leave else .update

set_option linter.unusedSimpArgs false in
set_option linter.unnecessarySeqFocus false in
/-- **C132, lazily.** The lazy direction decomposes a matrix exactly when there is none or when it computes the first direction of a
solution and the Jacobian is empty, or the last solution failed or was before a hard reset, or took more than `lazy_iterations`
iterations. -/
theorem C132_lazily (cs : List Call) (lazy : Nat) (log : Log) :
    number (Dir.calls clk cs { kind := .lazyFakeBroyden, lazyIterations := lazy } log).2 .factorize =
      number log .factorize + lazily lazy cs false none 1 := by
  have main : ∀ (cs : List Call) (d : Dir) (_ : d.kind = .lazyFakeBroyden) (took : Option Nat)
      (_ : d.action = actionOf d.lazyIterations took) (log : Log),
      number (Dir.calls clk cs d log).2 .factorize =
        number log .factorize + lazily d.lazyIterations cs d.lu.factorized took (d.lastIteration + 1) := by
    intro cs
    induction cs with
    | nil => intro d _ _ _ log; simp [Dir.calls, lazily]
    | cons c cs ih =>
      intro d hk took ha log
      show number (Dir.calls clk cs (d.call clk log c).1 (d.call clk log c).2).2 .factorize = _
      have hk' : (d.call clk log c).1.kind = .lazyFakeBroyden := by rw [call_kind]; exact hk
      cases c with
      | compute i =>
        rw [ih _ hk' took ha]
        have f : (d.call clk log (.compute i)).1.lu.factorized = true := by
          have : (d.call clk log (.compute i)).1.lu = (d.work clk i d.lu.clear log).1 := by
            show (if d.kind = .broyden then d.lu else (d.work clk i d.lu.clear log).1) = _
            simp [hk]
          rw [this, work_factorized]
        rw [f]
        show number (d.work clk i d.lu.clear log).2 .factorize + lazily d.lazyIterations cs true took (i.iteration + 1) = _
        unfold Dir.work
        rw [hk, ha, lazily]
        by_cases h : i.iteration = 0
        · rcases took with _ | k
          · cases hf : d.lu.factorized <;> cases hj : i.jEmpty <;>
              simp [h, hj, actionOf, refresh_number, clear_factorized, hf] <;> omega
          · by_cases hl : k ≤ d.lazyIterations
            · cases hf : d.lu.factorized <;> cases hj : i.jEmpty <;>
                simp [h, hj, actionOf, refresh_number, clear_factorized, hf, hl, Nat.not_lt.mpr hl] <;> omega
            · cases hf : d.lu.factorized <;> cases hj : i.jEmpty <;> cases hq : i.fits2 <;>
                simp [h, hj, actionOf, refresh_number, clear_factorized, hf, hl, hq, Nat.not_le.mp hl] <;> omega
        · cases hf : d.lu.factorized <;> simp [h, clear_factorized, hf] <;> omega
      | reset hard =>
        have e := ih _ hk' (if hard then none else took) (by
          show (if hard then Action.recompute else d.action) = actionOf d.lazyIterations _
          cases hard
          · exact ha
          · rfl) log
        rw [show (d.call clk log (.reset hard)).2 = log from rfl, e]
        congr 1
        rw [lazily]
        have : (d.call clk log (.reset hard)).1.lu.factorized = (d.lu.factorized && !hard) := by
          show (if hard && d.kind ≠ .broyden then ({} : Lu) else d.lu).factorized = _
          cases hard <;> simp [hk]
        rw [this]
        rfl
      | reportSuccess s =>
        have e := ih _ hk' (if s then some (d.lastIteration + 1) else none) (by
          show (if s then (if d.lastIteration + 1 ≤ d.lazyIterations then Action.leave else .update) else .recompute) = _
          cases s <;> rfl) log
        exact e
  exact main cs _ rfl none rfl log

/-- With at most two iterations to be lazy: a solution of two iterations keeps the matrix, one of three renews it, and so does a failure -/
example :
    let c (k : Nat) : Call := .compute ⟨k, false, 2, true, true⟩
    let cs : List Call := [c 0, c 1, .reportSuccess true, c 0, c 1, c 2, .reportSuccess true, c 0, .reportSuccess false, c 0]
    number (Dir.calls (fun _ => 1) cs { kind := .lazyFakeBroyden, lazyIterations := 2 } []).2 .factorize = 3 := by
  decide

/-! ## Rosenbrock solvers -/

variable {Key : Type} [DecidableEq Key]

/-- A cache without repetitions, with keys among `ks`, in which the decompositions not made yet are `todo` -/
def Cached (ks : List Key) (r : Ros Key) : Prop :=
  (r.cache.map Prod.fst).Nodup ∧ (∀ k ∈ r.cache.map Prod.fst, k ∈ ks) ∧ (∀ k, r.cur = some k → k ∈ r.cache.map Prod.fst)

theorem lookup_isSome (c : List (Key × Lu)) (k : Key) : (c.lookup k).isSome = true ↔ k ∈ c.map Prod.fst := by
  induction c with
  | nil => simp
  | cons e c ih =>
    obtain ⟨a, l⟩ := e
    rw [List.lookup_cons]
    by_cases h : k = a
    · simp [h]
    · have : (k == a) = false := by simpa using h
      simp only [this, ih, List.map_cons, List.mem_cons, h, false_or]

/-- The decompositions owed by a cache -/
def owedAll (c : List (Key × Lu)) : Nat := (c.map fun e => owed e.2).sum

theorem owedAll_map {c : List (Key × Lu)} {k : Key} {l l' : Lu} (hn : (c.map Prod.fst).Nodup) (hl : c.lookup k = some l) :
    owedAll (c.map fun e => if e.1 = k then (e.1, l') else e) + owed l = owedAll c + owed l' := by
  induction c with
  | nil => simp at hl
  | cons e c ih =>
    obtain ⟨a, m⟩ := e
    rw [List.map_cons, List.nodup_cons] at hn
    rw [List.lookup_cons] at hl
    by_cases h : a = k
    · subst h
      simp only [beq_self_eq_true, Option.some.injEq] at hl
      subst hl
      have : c.map (fun e => if e.1 = a then (e.1, l') else e) = c := by
        apply (List.map_congr_left (g := id) ?_).trans (List.map_id c)
        intro e he
        rw [if_neg]
        · rfl
        · intro h'
          exact hn.1 (List.mem_map.2 ⟨e, he, h'⟩)
      simp only [List.map_cons, this, if_true, owedAll, List.sum_cons]
      omega
    · have h' : (k == a) = false := by simpa using fun h' : k = a => h h'.symm
      simp only [h'] at hl
      have := ih hn.2 hl
      simp only [owedAll, List.map_cons, if_neg h, List.sum_cons] at this ⊢
      omega

theorem map_keys (c : List (Key × Lu)) (k : Key) (l' : Lu) :
    (c.map fun e => if e.1 = k then (e.1, l') else e).map Prod.fst = c.map Prod.fst := by
  rw [List.map_map]
  apply List.map_congr_left
  intro e _
  simp only [Function.comp]
  split <;> rfl

theorem linSolve_cost (ks : List Key) (r : Ros Key) (hr : Cached ks r) (log : Log) :
    Cached ks (r.linSolve clk log).1 ∧ (r.linSolve clk log).1.cache.length = r.cache.length ∧
    number (r.linSolve clk log).2 .setMatrix = number log .setMatrix ∧
    number (r.linSolve clk log).2 .factorize + owedAll (r.linSolve clk log).1.cache =
      number log .factorize + owedAll r.cache := by
  unfold Ros.linSolve
  split
  · exact ⟨hr, rfl, rfl, rfl⟩
  · split
    · exact ⟨hr, rfl, rfl, rfl⟩
    · rename_i hd _ l hl
      refine ⟨?_, ?_, ?_, ?_⟩
      · refine ⟨?_, ?_, ?_⟩
        · show (List.map Prod.fst (r.cache.map _)).Nodup
          rw [map_keys]; exact hr.1
        · show ∀ k ∈ List.map Prod.fst (r.cache.map _), _
          rw [map_keys]; exact hr.2.1
        · show ∀ k, r.cur = some k → k ∈ List.map Prod.fst (r.cache.map _)
          rw [map_keys]; exact hr.2.2
      · exact List.length_map ..
      · show number (l.clear.solve clk log).2 .setMatrix = _
        simp
      · show number (l.clear.solve clk log).2 .factorize + owedAll (r.cache.map _) = _
        have := owedAll_map (l' := (l.clear.solve clk log).1) hr.1 hl
        have z : owed (l.clear.solve clk log).1 = 0 := by rw [owed, solve_factorized]; rfl
        have q : number (l.clear.solve clk log).2 .factorize = number log .factorize + owed l := by
          rw [solve_number, clear_factorized, owed]
          simp
        omega

theorem linSolves_cost (ks : List Key) (n : Nat) : ∀ (r : Ros Key) (_ : Cached ks r) (log : Log),
    Cached ks (Ros.linSolves clk n r log).1 ∧ (Ros.linSolves clk n r log).1.cache.length = r.cache.length ∧
    number (Ros.linSolves clk n r log).2 .setMatrix = number log .setMatrix ∧
    number (Ros.linSolves clk n r log).2 .factorize + owedAll (Ros.linSolves clk n r log).1.cache =
      number log .factorize + owedAll r.cache := by
  induction n with
  | zero => exact fun r hr log => ⟨hr, rfl, rfl, rfl⟩
  | succ n ih =>
    intro r hr log
    obtain ⟨a, b, c, d⟩ := linSolve_cost clk ks r hr log
    obtain ⟨a', b', c', d'⟩ := ih _ a (r.linSolve clk log).2
    exact ⟨a', b'.trans b, c'.trans c, d'.trans d⟩

theorem updateW_cost (ks : List Key) (h100 : ks.length ≤ 100) (n : Nat) (hd : Key) (hm : hd ∈ ks)
    (r : Ros Key) (hr : Cached ks r) (log : Log) :
    Cached ks (r.updateW clk n hd log).1 ∧
    number (r.updateW clk n hd log).2 .setMatrix + r.cache.length =
      number log .setMatrix + (r.updateW clk n hd log).1.cache.length ∧
    number (r.updateW clk n hd log).2 .factorize + owedAll (r.updateW clk n hd log).1.cache + r.cache.length =
      number log .factorize + owedAll r.cache + (r.updateW clk n hd log).1.cache.length := by
  unfold Ros.updateW
  split
  · exact ⟨hr, rfl, rfl⟩
  · split
    · rename_i h
      refine ⟨⟨hr.1, hr.2.1, fun k hk => ?_⟩, rfl, rfl⟩
      simp only [Option.some.injEq] at hk
      exact hk ▸ (lookup_isSome _ _).1 h
    · rename_i h
      have hnot : hd ∉ r.cache.map Prod.fst := fun hc => h ((lookup_isSome _ _).2 hc)
      have hlen : r.cache.length < 100 := by
        have hn : (hd :: r.cache.map Prod.fst).Nodup := List.nodup_cons.2 ⟨hnot, hr.1⟩
        have hsub : hd :: r.cache.map Prod.fst ⊆ ks := by
          intro k hk
          rcases List.mem_cons.1 hk with hk | hk
          · exact hk ▸ hm
          · exact hr.2.1 k hk
        have := (List.subperm_of_subset hn hsub).length_le
        simp only [List.length_cons, List.length_map] at this
        omega
      have hc : (if r.cache.length ≥ 100 then [] else r.cache) = r.cache := if_neg (by omega)
      simp only [hc]
      refine ⟨⟨?_, ?_, ?_⟩, ?_, ?_⟩
      · exact List.nodup_cons.2 ⟨hnot, hr.1⟩
      · intro k hk
        rcases List.mem_cons.1 hk with hk | hk
        · exact hk ▸ hm
        · exact hr.2.1 k hk
      · intro k hk
        simp only [Option.some.injEq] at hk
        simp [hk]
      · simp only [setMatrix_number, List.length_cons, if_true]; omega
      · simp only [setMatrix_number, List.length_cons, owedAll, List.map_cons, List.sum_cons]
        have : owed (({} : Lu).setMatrix clk n log).1 = 1 := rfl
        rw [this]
        simp
        omega

theorem steps_cost (ks : List Key) (h100 : ks.length ≤ 100) (ps : List (RosStep Key))
    (hps : ∀ p ∈ ps, p.hard = false ∧ p.hd ∈ ks) : ∀ (r : Ros Key) (_ : Cached ks r) (log : Log),
    Cached ks (Ros.steps clk ps r log).1 ∧
    number (Ros.steps clk ps r log).2 .setMatrix + r.cache.length =
      number log .setMatrix + (Ros.steps clk ps r log).1.cache.length ∧
    number (Ros.steps clk ps r log).2 .factorize + owedAll (Ros.steps clk ps r log).1.cache + r.cache.length =
      number log .factorize + owedAll r.cache + (Ros.steps clk ps r log).1.cache.length := by
  induction ps with
  | nil => exact fun r hr log => ⟨hr, rfl, rfl⟩
  | cons p ps ih =>
    intro r hr log
    obtain ⟨hh, hd⟩ := hps p (by simp)
    obtain ⟨a, b, c⟩ := updateW_cost clk ks h100 p.n p.hd hd r hr log
    obtain ⟨a', b', c', d'⟩ := linSolves_cost clk ks p.solves _ a (r.updateW clk p.n p.hd log).2
    obtain ⟨a'', b'', c''⟩ := ih (fun q hq => hps q (by simp [hq])) _ a'
      (Ros.linSolves clk p.solves (r.updateW clk p.n p.hd log).1 (r.updateW clk p.n p.hd log).2).2
    have e : Ros.steps clk (p :: ps) r log =
        Ros.steps clk ps (Ros.linSolves clk p.solves (r.updateW clk p.n p.hd log).1 (r.updateW clk p.n p.hd log).2).1
          (Ros.linSolves clk p.solves (r.updateW clk p.n p.hd log).1 (r.updateW clk p.n p.hd log).2).2 := by
      show Ros.steps clk ps (Ros.linSolves clk p.solves (r.initStep clk p.hard p.n p.hd log).1
        (r.initStep clk p.hard p.n p.hd log).2).1 _ = _
      rw [hh]
      rfl
    rw [e]
    exact ⟨a'', by omega, by omega⟩

/-- **C132, Rosenbrock solvers.** After a hard reset, and until the next one, matrices are set and decomposed once for every value of
`h d` there is, however often the step size changes — as long as there are not more than 100 values (then the cache is cleared,
`C132_cache_false`). -/
theorem C132_rosenbrock_partial (n : Nat) (hd : Key) (solves : Nat) (ps : List (RosStep Key)) (hps : ∀ p ∈ ps, p.hard = false)
    (h100 : (hd :: ps.map (·.hd)).dedup.length ≤ 100) (r : Ros Key) (log : Log) :
    let q := Ros.steps clk (⟨true, n, hd, solves⟩ :: ps) r log
    number q.2 .setMatrix ≤ number log .setMatrix + (hd :: ps.map (·.hd)).dedup.length ∧
    number q.2 .factorize ≤ number log .factorize + (hd :: ps.map (·.hd)).dedup.length := by
  intro q
  set ks := (hd :: ps.map (·.hd)).dedup with hks
  have hr : Cached ks ({ r with cache := [], cur := none } : Ros Key) := ⟨by simp, by simp, by simp⟩
  have hm : hd ∈ ks := by simp [hks]
  have hall : ∀ p ∈ (⟨false, n, hd, solves⟩ :: ps : List (RosStep Key)), p.hard = false ∧ p.hd ∈ ks := by
    intro p hp
    rcases List.mem_cons.1 hp with rfl | hp
    · exact ⟨rfl, hm⟩
    · exact ⟨hps p hp, by simp only [hks, List.mem_dedup, List.mem_cons, List.mem_map]; exact Or.inr ⟨p, hp, rfl⟩⟩
  obtain ⟨a, b, c⟩ := steps_cost clk ks h100 _ hall _ hr log
  have e : q = Ros.steps clk (⟨false, n, hd, solves⟩ :: ps) { r with cache := [], cur := none } log := rfl
  have hlen : q.1.cache.length ≤ ks.length := by
    have := (List.subperm_of_subset a.1 a.2.1).length_le
    rw [e]
    simpa using this
  rw [← e] at b c
  have z : owedAll (({ r with cache := [], cur := none } : Ros Key).cache) = 0 := rfl
  simp only [List.length_nil] at b c
  rw [z] at c
  omega

/-- **C132 is false with many step sizes:** 101 values in turn, then the first one again: it is decomposed again. -/
theorem C132_cache_false :
    let ps : List (RosStep Int) := (List.range 101).map fun k => ⟨k = 0, 2, k + 1, 1⟩
    let r := Ros.steps (fun _ => 1) (ps ++ [⟨false, 2, 1, 1⟩]) {} []
    number r.2 .setMatrix = 102 ∧ number r.2 .factorize = 102 := by
  decide +kernel

/-- A step size that goes up and down: four steps, two decompositions -/
example :
    let r := Ros.steps (fun _ => 1) [⟨true, 2, (1 : Int), 1⟩, ⟨false, 2, 2, 1⟩, ⟨false, 2, 1, 1⟩, ⟨false, 2, 2, 1⟩] {} []
    number r.2 .setMatrix = 2 ∧ number r.2 .factorize = 2 ∧ number r.2 .solve = 4 := by
  decide

/-- Three directions of a Newton solution: the Hart direction decomposes once, the Broyden direction three times, the lazy one once -/
example :
    let cs : List Call := [.reset true, .compute ⟨0, true, 2, true, true⟩, .compute ⟨1, false, 2, true, true⟩,
      .compute ⟨2, false, 2, true, true⟩, .reportSuccess true]
    let f := fun k => number (Dir.calls (fun _ => 1) cs { kind := k } []).2 .factorize
    f .hart = 1 ∧ f .const = 1 ∧ f .lazyFakeBroyden = 1 ∧ f .broyden = 3 ∧ f .fakeBroyden = 3 ∧ f .simple = 3 := by
  decide

end Verif.Timing
