import Verif.Wiring.Props

/-
C109: parameters of a Newton solver.
-/

namespace Verif.Wiring

open Verif.Res

set_option linter.unusedSimpArgs false

theorem roundtrip_none {h : Heap} {s : Nat} {P : Params} (hs : s < h.next) (hp : h.parameters s = .ok P)
    (h1 : (h.solver s).itperf = none) : ∃ h', h.setParameters s P = .ok h' ∧ h'.parameters s = .ok P ∧ RegOk h' s ∧
      Agree h' s none := by
  have hn : s ≠ h.next := by omega
  simp only [Heap.parameters, h1, Except.ok.injEq, Option.isSome_none] at hp
  subst hp
  cases hr : (h.solver s).reg <;>
  simp [Heap.setParameters, Heap.maybe, Heap.create, bind, Except.bind, hn, h1, Heap.parameters, RegOk, Agree]

theorem roundtrip_some {h : Heap} {s p l : Nat} {P : Params} (hs : s < h.next) (hp : h.parameters s = .ok P)
    (h1 : (h.solver s).itperf = some p) (h2 : (h.perf p).ls = some l) :
    ∃ h', h.setParameters s P = .ok h' ∧ h'.parameters s = .ok P ∧ RegOk h' s ∧ Agree h' s none := by
  have hn : ∀ n, s ≠ h.next + n := by omega
  have hn0 : s ≠ h.next := by omega
  cases hd : (h.perf p).ddir with
  | none =>
    cases hr : (h.solver s).reg <;> cases he : (h.perf p).est <;>
    · simp [Heap.parameters, h1, h2, hr, he, hd] at hp
      subst hp
      simp [Heap.setParameters, Heap.maybe, Heap.create, bind, Except.bind, hn, hn0, Heap.parameters, RegOk, Agree,
        Heap.setPerfParameters, Nat.add_assoc, deref]
  | some d =>
    cases hj : (h.dir d).jp with
    | none => simp [Heap.parameters, h1, hd, hj, deref, bind, Except.bind] at hp
    | some j =>
      cases ht : (h.jp j).trimmer <;> cases hr : (h.solver s).reg <;> cases he : (h.perf p).est <;>
      · simp [Heap.parameters, h1, h2, hr, he, hd, hj, ht, deref, bind, Except.bind] at hp
        subst hp
        simp [Heap.setParameters, Heap.maybe, Heap.create, bind, Except.bind, hn, hn0, Heap.parameters, RegOk, Agree,
          Heap.setPerfParameters, Nat.add_assoc, deref]

/-- What the parameters tell about the components -/
theorem C109_complete {h : Heap} {s : Nat} {P : Params} (hp : h.parameters s = .ok P) : Complete h s ↔
    P.itperf = some true ∧ P.ddir = some true ∧ P.linsearch = some true ∧ P.err = some true := by
  cases h1 : (h.solver s).itperf with
  | none =>
    simp only [Heap.parameters, h1, Except.ok.injEq] at hp
    subst hp
    simp [Complete, h1]
  | some p =>
    cases hd : (h.perf p).ddir with
    | none =>
      simp [Heap.parameters, h1, hd] at hp
      subst hp
      simp [Complete, h1, hd]
    | some d =>
      cases hj : (h.dir d).jp with
      | none => simp [Heap.parameters, h1, hd, hj, deref, bind, Except.bind] at hp
      | some j =>
        simp [Heap.parameters, h1, hd, hj, deref, bind, Except.bind] at hp
        subst hp
        simp [Complete, h1, hd, hj, Option.isSome_iff_exists]
        grind

/-- C109 up to the mapping: if the parameters of a solver are read and set again (and the solver has a line search, or no
performer), then that is defined, the parameters are the same again, the regularization strategy is connected, and, if
the solver was complete, it works once its mapping has been set again. -/
theorem C109_roundtrip_partial {h : Heap} {s : Nat} {P : Params} (hs : s < h.next) (hp : h.parameters s = .ok P)
    (hl : ∀ p, (h.solver s).itperf = some p → (h.perf p).ls ≠ none) : ∃ h', h.setParameters s P = .ok h' ∧
      h'.parameters s = .ok P ∧ RegOk h' s ∧ (Complete h s → ∀ m, ∃ h'', h'.setComponent s (.mapping (some m)) = .ok h'' ∧
        h''.equations s = .ok (m, m, m)) := by
  have : ∃ h', h.setParameters s P = .ok h' ∧ h'.parameters s = .ok P ∧ RegOk h' s ∧ Agree h' s none := by
    cases h1 : (h.solver s).itperf with
    | none => exact roundtrip_none hs hp h1
    | some p =>
      cases h2 : (h.perf p).ls with
      | none => exact absurd h2 (hl p h1)
      | some l => exact roundtrip_some hs hp h1 h2
  obtain ⟨h', e1, e2, e3, -⟩ := this
  refine ⟨h', e1, e2, e3, fun hc m => ?_⟩
  obtain ⟨h'', e4, e5, -⟩ := keeps_step (c := .mapping (some m)) ((C109_complete e2).2 ((C109_complete hp).1 hc)) trivial
  exact ⟨h'', e4, equations_complete e5 (agree_mapping e4)⟩

/-- C109 is false of the mapping: setting the parameters that were read replaces the performer by a new one without a
mapping; every solver that works does not work any more. -/
theorem C109_roundtrip_false {h : Heap} {s : Nat} {P : Params} {q : Nat × Nat × Nat} (hs : s < h.next)
    (hp : h.parameters s = .ok P) (he : h.equations s = .ok q) :
    ∃ h', h.setParameters s P = .ok h' ∧ h'.equations s = .error .ub := by
  obtain ⟨a, b, c⟩ := q
  obtain ⟨-, p, d, j, l, h1, h2, h3, h4, -⟩ := equations_inv he
  obtain ⟨h', e1, -, -, ha⟩ := roundtrip_some hs hp h1 h4
  refine ⟨h', e1, ?_⟩
  unfold Heap.equations
  cases g1 : (h'.solver s).itperf with
  | none => rfl
  | some p' =>
    cases g2 : (h'.perf p').est with
    | none => simp [deref, g2, bind, Except.bind]
    | some _ => simp [deref, g2, bind, Except.bind, (ha p' g1).1]

/-- A new solver with an equation -/
theorem working : ∃ h, (Heap.empty.newSolver >>= fun n => n.2.setComponents n.1 [.reg (some 40), .mapping (some 7)]) = .ok h ∧
    h.next = 6 ∧ h.equations 0 = .ok (7, 7, 7) ∧ h.parameters 0 = .ok ⟨some true, some true, some 100, some true, some true,
      some false, some true, some true⟩ := ⟨_, rfl, rfl, by decide +kernel, by decide +kernel⟩

/-- C109 is false for the parameter `ddir` alone: a solver that works gets a new direction without a Jacobian
provider; then neither a run nor reading its parameters is defined. -/
theorem C109_ddir_false : ∃ h h', (Heap.empty.newSolver >>= fun n => n.2.setComponents n.1 [.mapping (some 7)]) = .ok h ∧
    h.equations 0 = .ok (7, 7, 7) ∧ h.setParameters 0 { ddir := some true } = .ok h' ∧ h'.equations 0 = .error .ub ∧
    h'.parameters 0 = .error .ub := by
  refine ⟨_, _, rfl, by decide +kernel, rfl, by decide +kernel, by decide +kernel⟩

/-- C109 is false for the parameter `itperf` alone: the solver loses all components, the regularization strategy still
refers to those of the former performer, and setting the parameters that are then read is not defined. -/
theorem C109_itperf_false : ∃ h h' P, (Heap.empty.newSolver >>= fun n =>
      n.2.setComponents n.1 [.reg (some 40), .mapping (some 7)]) = .ok h ∧
    h.equations 0 = .ok (7, 7, 7) ∧ h.setParameters 0 { itperf := some true } = .ok h' ∧ h'.equations 0 = .error .ub ∧
    ¬ RegOk h' 0 ∧ h'.parameters 0 = .ok P ∧ h'.setParameters 0 P = .error .ub := by
  refine ⟨_, _, ⟨some true, some true, some 100, some false, none, none, some false, some false⟩, rfl, by decide +kernel, rfl,
    by decide +kernel, ?_, by decide +kernel, ?_⟩
  · intro hr
    have := (hr 6 40 (by decide +kernel) (by decide +kernel)).2
    revert this
    decide +kernel
  · rfl

/-- The solver uses mapping `m` everywhere, with performer `p` and direction `d`, and new objects have other numbers. -/
def Works (h : Heap) (s m p d : Nat) : Prop :=
  ∃ e j l, s < h.next ∧ p < h.next ∧ d < h.next ∧ j < h.next ∧ l < h.next ∧ (h.solver s).itperf = some p ∧
    (h.perf p).mapping = some m ∧ (h.perf p).est = some e ∧ (h.perf p).ddir = some d ∧ (h.dir d).jp = some j ∧
    (h.dir d).mapping = some m ∧ (h.jp j).mapping = some m ∧ (h.perf p).ls = some l ∧ h.ls l = some m

theorem Works.equations {h : Heap} {s m p d : Nat} (w : Works h s m p d) : h.equations s = .ok (m, m, m) := by
  obtain ⟨e, j, l, -, -, -, -, -, h1, h2, h3, h4, h5, -, h6, h7, h8⟩ := w
  simp [Heap.equations, h1, h2, h3, h4, h5, h6, h7, h8, deref, bind, Except.bind]

theorem Works.alloc {h : Heap} {s m p d : Nat} (w : Works h s m p d) : Works h.alloc.2 s m p d := by
  obtain ⟨e, j, l, x1, x2, x3, x4, x5, h1, h2, h3, h4, h5, h6, h7, h8, h9⟩ := w
  exact ⟨e, j, l, by simp [Nat.ne_of_lt, *]; omega⟩

theorem Works.maybe {h : Heap} {s m p d : Nat} (w : Works h s m p d) {v : Option Bool} {f : Ref → Heap → Res Heap}
    (hn : v ≠ some false ∨ ∀ h, Works h s m p d → ∃ h', f none h = .ok h' ∧ Works h' s m p d)
    (hf : ∀ n h, Works h s m p d → n < h.next → ∃ h', f (some n) h = .ok h' ∧ Works h' s m p d) :
    ∃ h', h.maybe v f = .ok h' ∧ Works h' s m p d := by
  match v with
  | none => exact ⟨h, rfl, w⟩
  | some false => exact (hn.resolve_left (by simp)) h w
  | some true => exact hf _ _ w.alloc (by simp [Heap.create])

theorem bind_eq {α β : Type} {x : Res α} {f : α → Res β} {a : α} (h : x = .ok a) : (x >>= f) = f a := by
  rw [h]
  rfl

/-- C109 for parameters other than `itperf`, with `ddir` only together with `jacobian`: a solver that works (the objects
it uses being older than the ones to be created) is given new components, and still works on the same equation. Only
the regularization strategy and the trimmer may be empty. -/
theorem C109_partial {h : Heap} {s m p d : Nat} (w : Works h s m p d) {P : Params} (h1 : P.itperf = none)
    (h2 : P.ddir = none ∨ P.ddir = some true ∧ P.jacobian = some true) (h3 : P.jacobian ≠ some false) (h4 : P.linsearch ≠ some false) (h5 : P.err ≠ some false) :
    ∃ h', h.setParameters s P = .ok h' ∧ h'.equations s = .ok (m, m, m) := by
  have hi : (h.solver s).itperf = some p := by
    obtain ⟨e, j, l, -, -, -, -, -, h1, -⟩ := w
    exact h1
  have r1 : ∃ h', h.maybe P.regularizer (fun r h => do
      let h := h.setSolver s ({ · with reg := r })
      match r, some p with
      | some r, some p =>
        .ok ((h.setReg r ({ · with est := (h.perf p).est })).setReg r ({ · with ddir := (h.perf p).ddir }))
      | _, _ => .ok h) = .ok h' ∧ Works h' s m p d := by
    refine w.maybe (Or.inr fun h w => ⟨_, rfl, ?_⟩) fun n h w hn => ⟨_, rfl, ?_⟩
    · obtain ⟨e, j, l, w⟩ := w
      exact ⟨e, j, l, by simp [w]⟩
    · obtain ⟨e, j, l, w⟩ := w
      exact ⟨e, j, l, by simp [w]⟩
  obtain ⟨g1, e1, w1⟩ := r1
  have r2 : Works (match P.maxIterations with
    | some n => g1.setSolver s ({ · with limit := n })
    | none => g1) s m p d := by
    split
    · obtain ⟨e, j, l, w⟩ := w1
      exact ⟨e, j, l, by simp [w]⟩
    · exact w1
  generalize e2 : (match P.maxIterations with
    | some n => g1.setSolver s ({ · with limit := n })
    | none => g1) = g2 at r2
  have r3 : ∃ g g3 d, g2.maybe P.ddir (fun d h => do
        let h := (match d with
          | some d => h.setDirMapping d (h.perf p).mapping
          | none => h)
        let h := h.setPerf p ({ · with ddir := d })
        .ok (h.ifReg (h.solver s).reg ({ · with ddir := d }))) = .ok g ∧ (g.perf p).ddir = some d ∧
      g.maybe P.jacobian (fun j h => .ok (h.setDirJp d j)) = .ok g3 ∧ Works g3 s m p d := by
    rcases h2 with h2 | ⟨h2, h2'⟩
    · have hd : (g2.perf p).ddir = some d := by
        obtain ⟨e, j, l, w⟩ := r2
        exact w.2.2.2.2.2.2.2.2.1
      obtain ⟨g3, e3, w3⟩ := r2.maybe (v := P.jacobian) (f := fun j h => .ok (h.setDirJp d j)) (Or.inl h3) (by
        intro n h w hn
        obtain ⟨e, j, l, w⟩ := w
        exact ⟨_, rfl, e, n, l, by simp [w, hn]⟩)
      exact ⟨g2, g3, d, by rw [h2]; rfl, hd, e3, w3⟩
    · rw [h2, h2']
      obtain ⟨e, j, l, w⟩ := r2
      refine ⟨_, _, g2.next, rfl, by simp [Heap.create], rfl, e, g2.next + 1, l, ?_⟩
      obtain ⟨x1, x2, x3, x4, x5, w⟩ := w
      have y1 : s ≠ g2.next + 1 := by omega
      have y2 : p ≠ g2.next + 1 := by omega
      have y3 : l ≠ g2.next + 1 := by omega
      simp [w, Nat.ne_of_lt, Heap.create, x1, x2, x3, x4, x5, y1, y2, y3]
      omega
  obtain ⟨g, g3, d, e2', hd, e3, w3⟩ := r3
  obtain ⟨ee, j, l, w3'⟩ := w3
  have hj : (g3.dir d).jp = some j := w3'.2.2.2.2.2.2.2.2.2.1
  obtain ⟨g4, e4, w4⟩ := Works.maybe (h := g3) (s := s) (m := m) (p := p) (d := d) ⟨ee, j, l, w3'⟩ (v := P.jtrim)
    (f := fun t h => .ok (h.setJpTrimmer j t)) (Or.inr (by
      intro h w
      obtain ⟨e, j', l, w⟩ := w
      exact ⟨_, rfl, e, j', l, by simp [w]; grind⟩)) (by
      intro n h w hn
      obtain ⟨e, j', l, w⟩ := w
      exact ⟨_, rfl, e, j', l, by simp [w]; grind⟩)
  obtain ⟨g5, e5, w5⟩ := w4.maybe (v := P.linsearch) (f := fun l h => do
      let k ← deref l
      .ok ((h.setLsMapping k (h.perf p).mapping).setPerf p ({ · with ls := l }))) (Or.inl h4) (by
    intro n h w hn
    obtain ⟨e, j, l, w⟩ := w
    exact ⟨_, rfl, e, j, n, by simp [w, hn]⟩)
  obtain ⟨g6, e6, w6⟩ := w5.maybe (v := P.err) (f := fun e h =>
      let h := h.setPerf p ({ · with est := e })
      .ok (h.ifReg (h.solver s).reg ({ · with est := e }))) (Or.inl h5) (by
    intro n h w hn
    obtain ⟨e, j, l, w⟩ := w
    exact ⟨_, rfl, n, j, l, by simp [w]⟩)
  refine ⟨g6, ?_, w6.equations⟩
  have m0 : ∀ f, h.maybe P.itperf f = .ok h := fun _ => by rw [h1]; rfl
  have last : g2.setPerfParameters s p P = .ok g6 := by
    refine (bind_eq e2').trans ?_
    simp only [hd, e3, bind_ok, hj, e4, e5]
    exact e6
  refine (bind_eq (m0 _)).trans ?_
  simp only [hi]
  refine (bind_eq e1).trans ?_
  exact (congrArg (Heap.setPerfParameters s p P) e2).trans last

/-- The hypotheses of `C109_partial`, `C109_roundtrip_partial` and `C109_roundtrip_false` are met. -/
example : ∃ h P, Works h 0 7 1 3 ∧ 0 < h.next ∧ h.parameters 0 = .ok P ∧ Complete h 0 ∧
    (∀ p, (h.solver 0).itperf = some p → (h.perf p).ls ≠ none) ∧ h.equations 0 = .ok (7, 7, 7) := by
  obtain ⟨h, h1, h2, h3, h4⟩ := working
  cases h1
  refine ⟨_, _, ⟨2, 5, 4, by decide +kernel⟩, by decide +kernel, h4, ⟨1, 2, 3, 5, 4, by decide +kernel⟩, ?_, h3⟩
  intro p hp
  have : p = 1 := by
    have : (some 1 : Ref) = some p := hp ▸ by decide +kernel
    simpa using this.symm
  subst this
  decide +kernel

/-- Setting all parameters, none of them empty apart from the regularization strategy and the trimmer, always gives a
complete solver, whose parameters are those that were set. -/
theorem C109_all {h : Heap} {s n : Nat} {b b' : Bool} (hs : s < h.next) :
    ∃ h', h.setParameters s ⟨some true, some b, some n, some true, some true, some b', some true, some true⟩ = .ok h' ∧
      Complete h' s ∧ (h'.solver s).limit = n ∧ h.next ≤ h'.next ∧
      h'.parameters s = .ok ⟨some true, some b, some n, some true, some true, some b', some true, some true⟩ := by
  have hn : ∀ n, s ≠ h.next + n := by omega
  have hn0 : s ≠ h.next := by omega
  cases b <;> cases b' <;>
    simp [Heap.setParameters, Heap.maybe, Heap.create, bind, Except.bind, hn, hn0, Complete, Heap.setPerfParameters,
      Nat.add_assoc, deref, Heap.parameters]

end Verif.Wiring
