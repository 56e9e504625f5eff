import Verif.OdeWiring.Inv

/-
C118: everything that works for a solver has the right-hand side of the solver.
-/

namespace Verif.OdeWiring

open Verif.Res

/-- C118. `setOdeRhs` returns if the chain of reference solvers ends and no error norm calculator in it is null. Then the solver,
its reference solvers at any depth, and the event controllers, error norm calculators and step mappings of all these have the
given right-hand side. Other solvers are left as they were, and so are controllers and calculators that none of those uses. -/
theorem C118_told (h : Heap) (s : Nat) (r : Ref) (he : h.Ends s)
    (hn : ∀ u, h.Reach s u → (h.solver u).kind.hasNorm → (h.solver u).norm ≠ none) :
    ∃ N h', (∀ fuel, N ≤ fuel → h.setOdeRhs fuel s r = .ok h') ∧ (h'.solver s).rhs = r ∧ h'.Synced s ∧
      (∀ u, ¬ h.Reach s u → h'.solver u = h.solver u) ∧
      (∀ c, (∀ u, h.Reach s u → (h.solver u).ec ≠ some c) → h'.ec c = h.ec c) ∧
      (∀ n, (∀ u, h.Reach s u → (h.solver u).kind.hasNorm → (h.solver u).norm ≠ some n) → h'.norm n = h.norm n) := by
  obtain ⟨N, h', h1, h2⟩ := setOdeRhs_spec (r := r) he hn
  have a := h2.shape
  refine ⟨N, h', h1, h2.rhs s .self, fun u hu => ?_, h2.other, h2.ecOther, h2.normOther⟩
  rw [a.reach_iff] at hu
  rw [h2.rhs s .self]
  refine ⟨h2.rhs u hu, fun c hc => h2.ec u c hu (by rw [← a.ec]; exact hc), fun n hk hc => ?_, fun hk => ?_⟩
  · rw [a.kind] at hk
    rw [a.norm] at hc
    exact h2.norm u n hu hk hc
  · rw [a.kind] at hk
    exact h2.mapping u hu hk

/-- C118. After any sequence of calls that share nothing and do not go past the owner (`Op.Allowed`), from the start of the
program: everything that works for a solver has its right-hand side, for each solver, whatever the order of the calls. -/
theorem C118_history (ops : List Op) (h : Heap) (hr : Runs .empty ops h) (s : Nat) : h.Synced s :=
  (runs_inv hr inv_empty).2.synced s

/-- C118. In such a program, the solvers that control their error (embedded, SW2(4), extrapolator) have an error norm
calculator, and it has the right-hand side of the solver. -/
theorem C118_norm (ops : List Op) (h : Heap) (hr : Runs .empty ops h) (s : Nat)
    (hk : (h.solver s).kind = .controlled ∨ (h.solver s).kind = .extrapolator) :
    ∃ n, (h.solver s).norm = some n ∧ h.norm n = (h.solver s).rhs := by
  have i := runs_inv hr inv_empty
  have ht : (h.solver s).kind.hasNorm := by rcases hk with hk | hk <;> rw [hk] <;> rfl
  obtain ⟨n, hn⟩ := Option.ne_none_iff_exists'.1 (i.1.normSet s ht)
  exact ⟨n, hn, (C118_history ops h hr s s .self).2.2.1 n ht hn⟩

/-- C118. In such a program each further allowed call returns. -/
theorem C118_returns (ops : List Op) (h : Heap) (hr : Runs .empty ops h) (op : Op) (ha : op.Allowed h) :
    ∃ h', Runs .empty (ops ++ [op]) h' := by
  obtain ⟨N, h', h1, -⟩ := exec_inv (runs_inv hr inv_empty) op ha
  refine ⟨h', ?_⟩
  generalize Heap.empty = g at hr
  induction hr with
  | nil => exact .cons ha h1 .nil
  | cons ha' he _ ih => exact .cons ha' he (ih ha h1)

/-- C118. The predictor of an implicit Euler solver, with all that works for it, has the right-hand side of the solver when a
step begins. -/
theorem C118_predictor (ops : List Op) (h : Heap) (hr : Runs .empty ops h) (s t : Nat) (ht : (h.solver s).ref = some t)
    (ha : (Op.prepareStep s).Allowed h) :
    ∃ N h', (∀ fuel, N ≤ fuel → h.prepareStep fuel s = .ok h') ∧ h'.Synced t ∧ (h'.solver t).rhs = (h.solver s).rhs := by
  have i := runs_inv hr inv_empty
  obtain ⟨N, h', h1, h2, h3⟩ := inv_setRhs i (h.solver s).rhs (i.1.refLt s t ht) (ha.2.2 t ht)
  exact ⟨N, h', fun fuel hf => by simp only [Heap.prepareStep, ht]; exact h1 fuel hf, h2.2.synced t, h3⟩

/-! ### What goes wrong otherwise -/

theorem ends_of_ok (fuel : Nat) : ∀ (s : Nat) (r : Ref) (h h' : Heap), h.setOdeRhs fuel s r = .ok h' →
    h.Ends s ∧ ∀ u, h.Reach s u → (h.solver u).kind.hasNorm → (h.solver u).norm ≠ none := by
  induction fuel with
  | zero => intro s r h h' e; cases e
  | succ fuel ih =>
    intro s r h h' e
    have hn : (h.solver s).kind.hasNorm → (h.solver s).norm ≠ none := by
      intro hk hno
      rw [Heap.setOdeRhs] at e
      simp [Heap.modify, hk, hno, Heap.updateOdeRhs] at e
    rw [setOdeRhs_succ fuel s r h hn] at e
    have one : (h.solver s).kind ≠ .extrapolator ∨ (h.solver s).ref = none →
        ∀ u, h.Reach s u → (h.solver u).kind.hasNorm → (h.solver u).norm ≠ none := by
      intro hs u hu
      rcases reach_head hu with rfl | ⟨t, h1, h2, -⟩
      · exact hn
      · rcases hs with hs | hs
        · exact absurd h1 hs
        · rw [hs] at h2; cases h2
    by_cases hk : (h.solver s).kind = .extrapolator
    · cases hr : (h.solver s).ref with
      | none => exact ⟨.null hr, one (.inr hr)⟩
      | some t =>
        rw [hk, hr] at e
        obtain ⟨h1, h2⟩ := ih t r (h.told s r) h' e
        have a := (told_shape s r h).symm
        refine ⟨.next hk hr (a.ends h1), fun u hu => ?_⟩
        rcases reach_head hu with rfl | ⟨t', -, h4, h5⟩
        · exact hn
        · rw [hr] at h4
          cases h4
          have := h2 u (a.reach_iff.1 h5)
          rw [← a.kind, ← a.norm] at this
          exact this
    · exact ⟨.other hk, one (.inl hk)⟩

/-- C118. The conditions of `C118_told` are necessary. -/
theorem C118_returns_iff (h : Heap) (s : Nat) (r : Ref) :
    (∃ fuel h', h.setOdeRhs fuel s r = .ok h') ↔
      h.Ends s ∧ ∀ u, h.Reach s u → (h.solver u).kind.hasNorm → (h.solver u).norm ≠ none := by
  constructor
  · rintro ⟨fuel, h', e⟩
    exact ends_of_ok fuel s r h h' e
  · rintro ⟨he, hn⟩
    obtain ⟨N, h', h1, -⟩ := setOdeRhs_spec (r := r) he hn
    exact ⟨N, h', h1 N (Nat.le_refl N)⟩

/-- C118 (false in general). Giving an extrapolator a reference solver whose chain of reference solvers comes back to it, for
example itself, never returns: the stack overflows. -/
theorem C118_cycle_false (h : Heap) (s t : Nat) (hk : (h.solver s).kind = .extrapolator) (hr : h.Reach t s) (fuel : Nat) :
    ∃ e, h.setReferenceSolver fuel s (some t) = .error e := by
  set g := h.modify s ({ · with ref := some t }) with hg
  have hgs : g.solver s = { h.solver s with ref := some t } := by simp [hg, Heap.modify]
  have hgk : ∀ u, (g.solver u).kind = (h.solver u).kind := by
    intro u
    by_cases e : u = s
    · subst e; rw [hgs]
    · simp [hg, Heap.modify, e]
  -- every solver that leads to `s` leads to it after the call
  have hmono : ∀ u, h.Reach u s → g.Reach u s := by
    intro u hu
    -- follow the chain until it first meets `s`
    suffices H : ∀ v, h.Reach u v → g.Reach u v ∨ g.Reach u s by
      rcases H s hu with h1 | h1 <;> exact h1
    intro v hv
    induction hv with
    | self => exact .inl .self
    | @step w v _ hkw hrw ih =>
      rcases ih with ih | ih
      · by_cases e : w = s
        · exact .inr (e ▸ ih)
        · refine .inl (.step ih ((hgk w).trans hkw) ?_)
          simp [hg, Heap.modify, e, hrw]
      · exact .inr ih
  have hcyc : ∀ u, g.Ends u → ¬ g.Reach u s := by
    intro u hE
    have hts := hmono t hr
    induction hE with
    | other hk' =>
      intro hR
      rcases reach_head hR with rfl | ⟨v, h1, -, -⟩
      · exact hk' ((hgk _).trans hk)
      · exact hk' h1
    | null hr' =>
      intro hR
      rcases reach_head hR with rfl | ⟨v, -, h2, -⟩
      · rw [hgs] at hr'; cases hr'
      · rw [hr'] at h2; cases h2
    | next hk' hr' _ ih =>
      intro hR
      rcases reach_head hR with rfl | ⟨v, -, h2, h3⟩
      · rw [hgs] at hr'
        cases hr'
        exact ih hts
      · rw [hr'] at h2
        cases h2
        exact ih h3
  have e : h.setReferenceSolver fuel s (some t) = g.setOdeRhs fuel t (g.solver s).rhs := by
    simp [Heap.setReferenceSolver, Heap.syncOdeRhs, ← hg, hgs]
  rw [e]
  cases hx : g.setOdeRhs fuel t (g.solver s).rhs with
  | error e => exact ⟨e, rfl⟩
  | ok h' => exact absurd (hmono t hr) (hcyc t (ends_of_ok fuel t _ g h' hx).1)

/-- C118 (false in general). Setting a null error norm calculator is undefined. -/
theorem C118_norm_false (h : Heap) (s : Nat) : h.setErrorNormCalculator s none = .error .ub := by
  simp [Heap.setErrorNormCalculator, Heap.modify, Heap.updateOdeRhs]

/-- Two solvers of fixed step with right-hand sides 7 and 8, the second with the event controller of the first -/
def shared : Res Heap := do
  let h := (Heap.empty.new .fixed).2
  let h := (h.new .fixed).2
  let h ← h.setOdeRhs 1 0 (some 7)
  let h ← h.setOdeRhs 1 1 (some 8)
  .ok (h.setEventController 1 (some 0))

/-- C118 (false in general). An event controller shared by two solvers works with the right-hand side of the one that was set
last: the other detects events of another problem. -/
theorem C118_shared_false : ∃ h, shared = .ok h ∧ (h.solver 0).rhs = some 7 ∧ (h.solver 0).ec = some 0 ∧ h.ec 0 = some 8 :=
  ⟨_, rfl, rfl, rfl, rfl⟩

/-- An extrapolator with right-hand side 7, whose reference solver is then given 8 directly -/
def bypassed : Res Heap := do
  let h := (Heap.empty.new .extrapolator).2
  let h := (h.new .fixed).2
  let h ← h.setReferenceSolver 2 0 (some 1)
  let h ← h.setOdeRhs 2 0 (some 7)
  h.setOdeRhs 1 1 (some 8)

/-- C118 (false in general). A right-hand side given to the reference solver is used for its steps until that of the extrapolator
is set again, while the extrapolator detects events of its own. -/
theorem C118_bypass_false : ∃ h, bypassed = .ok h ∧ (h.solver 0).rhs = some 7 ∧ (h.solver 0).ref = some 1 ∧
    (h.solver 1).rhs = some 8 :=
  ⟨_, rfl, rfl, rfl, rfl⟩

/-! ### Examples -/

/-- An extrapolator and implicit Euler -/
def pair : Heap := ((Heap.empty.new .extrapolator).2.new .implicit).2

/-- The extrapolator uses implicit Euler -/
def linked : Heap := ((pair.modify 0 ({ · with ref := some 1 })).told 1 none).modify 1 (fun x => { x with mapping := none })

theorem linked_runs : Runs .empty [.new .extrapolator, .new .implicit, .setRef 0 (some 1)] linked := by
  refine .cons (N := 0) (h1 := (Heap.empty.new .extrapolator).2) trivial (fun _ _ => rfl)
    (.cons (N := 0) (h1 := pair) trivial (fun _ _ => rfl) (.cons (N := 1) (h1 := linked) ⟨by decide, rfl, ?_⟩ (fun fuel hf => ?_) .nil))
  · intro t e
    cases e
    refine ⟨by decide, fun u hu hk hr => ?_, fun hr => ?_⟩
    · have : (pair.solver u).ref = none := by
        by_cases e' : u = 1
        · subst e'; rfl
        · simp [pair, Heap.new, Heap.empty, hu, e']
      rw [this] at hr; cases hr
    · rcases reach_head hr with e | ⟨t, hk, -, -⟩
      · cases e
      · cases hk
  · obtain ⟨f, rfl⟩ : ∃ f, fuel = f + 1 := ⟨fuel - 1, by omega⟩
    rfl

/-- The right-hand side of the extrapolator can be set; the step mapping of its reference solver has it. -/
example : ∃ h, Runs .empty [.new .extrapolator, .new .implicit, .setRef 0 (some 1), .setRhs 0 (some 5)] h :=
  C118_returns _ _ linked_runs (.setRhs 0 (some 5)) ⟨by decide, fun u hk hr => by
    by_cases e : u = 0
    · subst e; cases hr
    · by_cases e' : u = 1
      · subst e'; cases hk
      · have : (linked.solver u).ref = none := by
          simp [linked, pair, Heap.new, Heap.empty, Heap.modify, Heap.told, e, e']
        rw [this] at hr; cases hr⟩

example : ∃ h, linked.setOdeRhs 2 0 (some 5) = .ok h ∧ (h.solver 1).mapping = some 5 ∧ h.ec 1 = some 5 ∧ h.norm 0 = some 5 :=
  ⟨_, rfl, rfl, rfl, rfl⟩

/-- An extrapolator that is its own reference solver -/
example (fuel : Nat) : ∃ e, pair.setReferenceSolver fuel 0 (some 0) = .error e :=
  C118_cycle_false pair 0 0 rfl .self fuel

end Verif.OdeWiring
