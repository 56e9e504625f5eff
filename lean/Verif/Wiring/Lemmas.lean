import Verif.Wiring.Fields

/-
Lemmas about calls of `setComponent`.
-/

namespace Verif.Wiring

open Verif.Res

/-- Every component in use by solver `s` has mapping `m`. -/
def Agree (h : Heap) (s : Nat) (m : Ref) : Prop :=
  ∀ p, (h.solver s).itperf = some p → (h.perf p).mapping = m ∧
    (∀ l, (h.perf p).ls = some l → h.ls l = m) ∧
    ∀ d, (h.perf p).ddir = some d → (h.dir d).mapping = m ∧
      ∀ j, (h.dir d).jp = some j → (h.jp j).mapping = m ∧
        ∀ t, (h.jp j).trimmer = some t → h.trimmer t = m

/-- The regularization strategy refers to the error estimator and the descent direction in use. -/
def RegOk (h : Heap) (s : Nat) : Prop :=
  ∀ p r, (h.solver s).itperf = some p → (h.solver s).reg = some r → (h.reg r).est = (h.perf p).est ∧
    (h.reg r).ddir = (h.perf p).ddir

/-- The call replaces the iteration performer. -/
def Comp.Itperf : Comp → Prop
  | .itperf _ => True
  | _ => False

/-- The mapping in use after the call -/
def Comp.mappingAfter (m : Ref) : Comp → Ref
  | .mapping m' => m'
  | _ => m

/-- A call of `setComponent` that is defined, as a sequence of setters -/
theorem setComponent_inv {h h' : Heap} {s : Nat} {c : Comp} (e : h.setComponent s c = .ok h') :
    match c with
    | .itperf p => ((h.solver s).reg = none ∧ h' = h.setSolver s ({ · with itperf := p })) ∨
        ∃ r q, (h.solver s).reg = some r ∧ p = some q ∧
          h' = ((h.setSolver s ({ · with itperf := p })).setReg r ({ · with est := (h.perf q).est })).setReg r
            ({ · with ddir := (h.perf q).ddir })
    | .mapping m => ((h.solver s).itperf = none ∧ h' = h) ∨
        ∃ p d l, (h.solver s).itperf = some p ∧ (h.perf p).ddir = some d ∧ (h.perf p).ls = some l ∧
          h' = ((h.setPerf p ({ · with mapping := m })).setDirMapping d m).setLsMapping l m
    | .est e => ((h.solver s).itperf = none ∧ h' = h.ifReg (h.solver s).reg ({ · with est := e })) ∨
        ∃ p, (h.solver s).itperf = some p ∧
          h' = (h.setPerf p ({ · with est := e })).ifReg (h.solver s).reg ({ · with est := e })
    | .ddir d => ((h.solver s).itperf = none ∧ h' = h.ifReg (h.solver s).reg ({ · with ddir := d })) ∨
        ∃ p k, (h.solver s).itperf = some p ∧ d = some k ∧
          h' = ((h.setDirMapping k (h.perf p).mapping).setPerf p ({ · with ddir := d })).ifReg (h.solver s).reg
            ({ · with ddir := d })
    | .jp j => (((h.solver s).itperf = none ∨ ∃ p, (h.solver s).itperf = some p ∧ (h.perf p).ddir = none) ∧ h' = h) ∨
        ∃ p d, (h.solver s).itperf = some p ∧ (h.perf p).ddir = some d ∧ h' = h.setDirJp d j
    | .ls l => ((h.solver s).itperf = none ∧ h' = h) ∨
        ∃ p k, (h.solver s).itperf = some p ∧ l = some k ∧
          h' = (h.setLsMapping k (h.perf p).mapping).setPerf p ({ · with ls := l })
    | .reg r => (((h.solver s).itperf = none ∨ r = none) ∧ h' = h.setSolver s ({ · with reg := r })) ∨
        ∃ p k, (h.solver s).itperf = some p ∧ r = some k ∧
          h' = ((h.setSolver s ({ · with reg := r })).setReg k ({ · with est := (h.perf p).est })).setReg k
            ({ · with ddir := (h.perf p).ddir })
    | .trimmer t => ((∀ p d j, (h.solver s).itperf = some p → (h.perf p).ddir = some d → (h.dir d).jp ≠ some j) ∧
        h' = h) ∨
        ∃ p d j, (h.solver s).itperf = some p ∧ (h.perf p).ddir = some d ∧ (h.dir d).jp = some j ∧
          h' = h.setJpTrimmer j t := by
  cases c with
  | itperf p =>
    cases hr : (h.solver s).reg <;> cases p <;>
      simp [Heap.setComponent, hr, deref, bind, Except.bind] at e ⊢ <;> exact e.symm
  | mapping m =>
    cases hp : (h.solver s).itperf with
    | none => simp [Heap.setComponent, hp] at e; simp [e]
    | some p =>
      cases hd : (h.perf p).ddir <;> cases hl : (h.perf p).ls <;>
        simp [Heap.setComponent, hp, hd, hl, deref, bind, Except.bind] at e ⊢ <;> exact e.symm
  | est m =>
    cases hp : (h.solver s).itperf <;> simp [Heap.setComponent, hp] at e ⊢ <;> exact e.symm
  | ddir d =>
    cases hp : (h.solver s).itperf <;> cases d <;> simp [Heap.setComponent, hp, deref, bind, Except.bind] at e ⊢ <;>
      exact e.symm
  | jp j =>
    cases hp : (h.solver s).itperf with
    | none => simp [Heap.setComponent, hp] at e; simp [e]
    | some p => cases hd : (h.perf p).ddir <;> simp [Heap.setComponent, hp, hd] at e ⊢ <;> exact e.symm
  | ls l =>
    cases hp : (h.solver s).itperf <;> cases l <;> simp [Heap.setComponent, hp, deref, bind, Except.bind] at e ⊢ <;>
      exact e.symm
  | reg r =>
    cases hp : (h.solver s).itperf <;> cases r <;> simp [Heap.setComponent, hp] at e ⊢ <;>
      exact e.symm
  | trimmer t =>
    cases hp : (h.solver s).itperf with
    | none => simp [Heap.setComponent, hp] at e; simp [e]
    | some p =>
      cases hd : (h.perf p).ddir with
      | none =>
        simp only [Heap.setComponent, hp, hd, Except.ok.injEq] at e ⊢
        exact Or.inl ⟨by grind, e.symm⟩
      | some d =>
        cases hj : (h.dir d).jp with
        | none =>
          simp only [Heap.setComponent, hp, hd, hj, Except.ok.injEq] at e ⊢
          exact Or.inl ⟨by grind, e.symm⟩
        | some j =>
          simp only [Heap.setComponent, hp, hd, hj, Except.ok.injEq] at e ⊢
          exact Or.inr ⟨p, d, j, rfl, hd, hj, e.symm⟩

theorem agree_step {h h' : Heap} {s : Nat} {m : Ref} {c : Comp} (ha : Agree h s m) (hc : ¬ c.Itperf)
    (e : h.setComponent s c = .ok h') : Agree h' s (c.mappingAfter m) := by
  have i := setComponent_inv e
  cases c <;> simp only [Comp.Itperf, not_true_eq_false] at hc <;> simp only [Comp.mappingAfter] <;>
    simp only at i
  case mapping m' =>
    obtain ⟨hp, rfl⟩ | ⟨p, d, l, hp, hd, hl, rfl⟩ := i
    · intro q hq
      rw [hp] at hq
      cases hq
    · intro q hq
      simp only [setLsMapping_solver, setDirMapping_solver, setPerf_solver, hp, Option.some.injEq] at hq
      subst hq
      simp [hd, hl]
      grind
  case est => 
    obtain ⟨hp, rfl⟩ | ⟨p, hp, rfl⟩ := i
    · intro q hq
      simp [hp] at hq
    · intro q hq
      simp [hp] at hq
      subst hq
      simpa using ha p hp
  case ddir d =>
    obtain ⟨hp, rfl⟩ | ⟨p, k, hp, rfl, rfl⟩ := i
    · intro q hq
      simp [hp] at hq
    · intro q hq
      simp [hp] at hq
      subst hq
      have := ha p hp
      simp
      grind
  case jp d =>
    obtain ⟨hp, rfl⟩ | ⟨p, k, hp, hd, rfl⟩ := i
    · exact ha
    · intro q hq
      simp [hp] at hq
      subst hq
      have := ha p hp
      simp [hd]
      grind
  case ls d =>
    obtain ⟨hp, rfl⟩ | ⟨p, k, hp, rfl, rfl⟩ := i
    · exact ha
    · intro q hq
      simp [hp] at hq
      subst hq
      have := ha p hp
      simp
      grind
  case reg d =>
    obtain ⟨hp, rfl⟩ | ⟨p, k, hp, rfl, rfl⟩ := i
    · intro q hq
      simp at hq
      simpa using ha q hq
    · intro q hq
      simp at hq
      simpa using ha q hq
  case trimmer d =>
    obtain ⟨hp, rfl⟩ | ⟨p, k, j, hp, hd, hj, rfl⟩ := i
    · exact ha
    · intro q hq
      simp [hp] at hq
      subst hq
      have := ha p hp
      simp [hd]
      grind

theorem reg_step {h h' : Heap} {s : Nat} {c : Comp} (ha : RegOk h s)
    (e : h.setComponent s c = .ok h') : RegOk h' s := by
  have i := setComponent_inv e
  cases c <;> simp only at i
  case itperf q =>
    obtain ⟨hp, rfl⟩ | ⟨r, q, hr, rfl, rfl⟩ := i <;> intro p r hp hr <;> simp at hp hr <;> simp_all
  case mapping q =>
    obtain ⟨hp, rfl⟩ | ⟨p, d, l, hp, hd, hl, rfl⟩ := i
    · exact ha
    · intro p r hp hr
      have := ha p r (by simpa using hp) (by simpa using hr)
      simp
      grind
  case est q =>
    obtain ⟨hp, rfl⟩ | ⟨p, hp, rfl⟩ := i
    · intro p r hp' hr
      simp_all
    · intro p r hp' hr
      have := ha p r (by simpa using hp') (by simpa using hr)
      simp at hp' hr
      simp [hr]
      grind
  case ddir q =>
    obtain ⟨hp, rfl⟩ | ⟨p, k, hp, rfl, rfl⟩ := i
    · intro p r hp' hr
      simp_all
    · intro p r hp' hr
      have := ha p r (by simpa using hp') (by simpa using hr)
      simp at hp' hr
      simp [hr]
      grind
  case jp q =>
    obtain ⟨hp, rfl⟩ | ⟨p, k, hp, hd, rfl⟩ := i
    · exact ha
    · intro p r hp' hr
      simpa using ha p r (by simpa using hp') (by simpa using hr)
  case ls q =>
    obtain ⟨hp, rfl⟩ | ⟨p, k, hp, rfl, rfl⟩ := i
    · exact ha
    · intro p r hp' hr
      have := ha p r (by simpa using hp') (by simpa using hr)
      simp
      grind
  case reg q =>
    obtain ⟨hp, rfl⟩ | ⟨p, k, hp, rfl, rfl⟩ := i
    · intro p r hp' hr
      simp at hp' hr
      grind
    · intro p r hp' hr
      simp at hp' hr
      simp
      grind
  case trimmer q =>
    obtain ⟨hp, rfl⟩ | ⟨p, k, j, hp, hd, hj, rfl⟩ := i
    · exact ha
    · intro p r hp' hr
      simpa using ha p r (by simpa using hp') (by simpa using hr)

/-- Setting the mapping brings all components in use to it, whatever they had. -/
theorem agree_mapping {h h' : Heap} {s : Nat} {m : Ref} (e : h.setComponent s (.mapping m) = .ok h') : Agree h' s m := by
  have i := setComponent_inv e
  simp only at i
  obtain ⟨hp, rfl⟩ | ⟨p, d, l, hp, hd, hl, rfl⟩ := i
  · intro q hq
    rw [hp] at hq
    cases hq
  · intro q hq
    simp only [setLsMapping_solver, setDirMapping_solver, setPerf_solver, hp, Option.some.injEq] at hq
    subst hq
    simp [hd, hl]
    grind

/-- The solver has a performer with an error estimator, a direction with a Jacobian provider, and a line search. -/
def Complete (h : Heap) (s : Nat) : Prop :=
  ∃ p e d j l, (h.solver s).itperf = some p ∧ (h.perf p).est = some e ∧ (h.perf p).ddir = some d ∧
    (h.dir d).jp = some j ∧ (h.perf p).ls = some l

theorem equations_complete {h : Heap} {s m : Nat} (hc : Complete h s) (ha : Agree h s (some m)) :
    h.equations s = .ok (m, m, m) := by
  obtain ⟨p, e, d, j, l, h1, h2, h3, h4, h5⟩ := hc
  obtain ⟨a1, a2, a3⟩ := ha p h1
  obtain ⟨-, a4⟩ := a3 d h3
  simp [Heap.equations, h1, h2, h3, h4, h5, deref, bind, Except.bind, a1, a2 l h5, (a4 j h4).1]

theorem equations_inv {h : Heap} {s a b c : Nat} (e : h.equations s = .ok (a, b, c)) : Complete h s ∧
    ∃ p d j l, (h.solver s).itperf = some p ∧ (h.perf p).ddir = some d ∧ (h.dir d).jp = some j ∧ (h.perf p).ls = some l ∧
      (h.perf p).mapping = some a ∧ (h.jp j).mapping = some b ∧ h.ls l = some c := by
  unfold Heap.equations deref at e
  cases h1 : (h.solver s).itperf with
  | none => simp [h1, bind, Except.bind] at e
  | some p =>
    cases h2 : (h.perf p).est <;> cases h3 : (h.perf p).mapping <;> cases h4 : (h.perf p).ddir <;>
      simp [h1, h2, h3, h4, bind, Except.bind] at e
    rename_i e0 m d
    cases h5 : (h.dir d).jp <;> simp [h5] at e
    rename_i j
    cases h6 : (h.jp j).mapping <;> cases h7 : (h.perf p).ls <;> simp [h6, h7] at e
    rename_i m2 l
    cases h8 : h.ls l <;> simp [h8] at e
    obtain ⟨rfl, rfl, rfl⟩ := e
    exact ⟨⟨p, e0, d, j, l, h1, h2, h4, h5, h7⟩, p, d, j, l, rfl, h4, h5, h7, h3, h6, h8⟩

/-- The call gives the solver an object (the descent direction: one that has a Jacobian provider), and does not replace
the performer. Mapping, regularization strategy and trimmer may be null. -/
def Comp.Keeps (h : Heap) : Comp → Prop
  | .itperf _ => False
  | .est e => e.isSome
  | .ddir d => ∃ k, d = some k ∧ (h.dir k).jp.isSome
  | .jp j => j.isSome
  | .ls l => l.isSome
  | _ => True

theorem keeps_step {h : Heap} {s : Nat} {c : Comp} (hs : Complete h s) (hc : c.Keeps h) :
    ∃ h', h.setComponent s c = .ok h' ∧ Complete h' s ∧ (∀ d, (h.dir d).jp.isSome → (h'.dir d).jp.isSome) := by
  obtain ⟨p, e, d, j, l, h1, h2, h3, h4, h5⟩ := hs
  cases c with
  | itperf => exact hc.elim
  | mapping m =>
    refine ⟨_, by simp [Heap.setComponent, h1, h3, h5, deref, bind, Except.bind]; rfl, ?_, ?_⟩
    · exact ⟨p, e, d, j, l, by simp [h1, h2, h3, h4, h5]⟩
    · intro d hd
      simp
      grind
  | est q =>
    obtain ⟨q, rfl⟩ := Option.isSome_iff_exists.1 hc
    refine ⟨_, by simp [Heap.setComponent, h1]; rfl, ?_, ?_⟩
    · exact ⟨p, q, d, j, l, by simp [h1, h3, h4, h5]⟩
    · intro d hd
      simpa using hd
  | ddir q =>
    obtain ⟨k, rfl, hk⟩ := hc
    obtain ⟨j', hj⟩ := Option.isSome_iff_exists.1 hk
    refine ⟨_, by simp [Heap.setComponent, h1, deref, bind, Except.bind]; rfl, ?_, ?_⟩
    · exact ⟨p, e, k, j', l, by simp [h1, h2, hj, h5]⟩
    · intro d hd
      simp
      grind
  | jp q =>
    obtain ⟨q, rfl⟩ := Option.isSome_iff_exists.1 hc
    refine ⟨_, by simp [Heap.setComponent, h1, h3]; rfl, ?_, ?_⟩
    · exact ⟨p, e, d, q, l, by simp [h1, h2, h3, h5]⟩
    · intro d hd
      simp
      grind
  | ls q =>
    obtain ⟨q, rfl⟩ := Option.isSome_iff_exists.1 hc
    refine ⟨_, by simp [Heap.setComponent, h1, deref, bind, Except.bind]; rfl, ?_, ?_⟩
    · exact ⟨p, e, d, j, q, by simp [h1, h2, h3, h4]⟩
    · intro d hd
      simpa using hd
  | reg r =>
    cases r with
    | none =>
      refine ⟨_, by simp [Heap.setComponent]; rfl, ?_, ?_⟩
      · exact ⟨p, e, d, j, l, by simp [h1, h2, h3, h4, h5]⟩
      · intro d hd
        simpa using hd
    | some r =>
      refine ⟨_, by simp [Heap.setComponent, h1]; rfl, ?_, ?_⟩
      · exact ⟨p, e, d, j, l, by simp [h1, h2, h3, h4, h5]⟩
      · intro d hd
        simpa using hd
  | trimmer t =>
    refine ⟨_, by simp [Heap.setComponent, h1, h3, h4]; rfl, ?_, ?_⟩
    · exact ⟨p, e, d, j, l, by simp [h1, h2, h3, h4, h5]⟩
    · intro d hd
      simpa using hd

section Calls

variable {h : Heap} {s p : Nat}

theorem call_itperf {q : Ref} (hr : (h.solver s).reg = none) :
    h.setComponent s (.itperf q) = .ok (h.setSolver s ({ · with itperf := q })) := by
  simp [Heap.setComponent, hr]

theorem call_est {e : Ref} (hp : (h.solver s).itperf = some p) :
    h.setComponent s (.est e) = .ok ((h.setPerf p ({ · with est := e })).ifReg (h.solver s).reg ({ · with est := e })) := by
  simp [Heap.setComponent, hp]

theorem call_ddir {d : Nat} (hp : (h.solver s).itperf = some p) :
    h.setComponent s (.ddir (some d)) = .ok (((h.setDirMapping d (h.perf p).mapping).setPerf p
      ({ · with ddir := some d })).ifReg (h.solver s).reg ({ · with ddir := some d })) := by
  simp [Heap.setComponent, hp, deref, bind, Except.bind]

theorem call_ls {l : Nat} (hp : (h.solver s).itperf = some p) :
    h.setComponent s (.ls (some l)) = .ok ((h.setLsMapping l (h.perf p).mapping).setPerf p ({ · with ls := some l })) := by
  simp [Heap.setComponent, hp, deref, bind, Except.bind]

theorem call_jp {j : Ref} {d : Nat} (hp : (h.solver s).itperf = some p) (hd : (h.perf p).ddir = some d) :
    h.setComponent s (.jp j) = .ok (h.setDirJp d j) := by
  simp [Heap.setComponent, hp, hd]

end Calls

@[simp] theorem alloc_fst (h : Heap) : h.alloc.1 = h.next := rfl

/-- The constructor: a new solver has all components, no mapping and no regularization strategy, and is the first new object. -/
theorem newSolver_ok (h : Heap) : ∃ h', h.newSolver = .ok (h.next, h') ∧ Complete h' h.next ∧ Agree h' h.next none ∧
    h'.solver h.next = { itperf := some (h.next + 1) } ∧ h'.next = h.next + 6 ∧
    (∀ d, d < h.next → h'.perf d = h.perf d ∧ h'.dir d = h.dir d ∧ h'.jp d = h.jp d ∧ h'.ls d = h.ls d ∧
      h'.trimmer d = h.trimmer d ∧ h'.reg d = h.reg d ∧ h'.solver d = h.solver d) := by
  generalize e1 : h.alloc.2 = h1
  generalize e2 : h1.alloc.2 = h2
  generalize e3 : h2.setSolver h.next ({ · with itperf := some h1.next }) = h3
  generalize e4 : (h3.alloc.2).setPerf h1.next ({ · with est := some h3.next }) = h4
  generalize e5 : ((h4.alloc.2).setDirMapping h4.next none).setPerf h1.next ({ · with ddir := some h4.next }) = h5
  generalize e6 : ((h5.alloc.2).setLsMapping h5.next none).setPerf h1.next ({ · with ls := some h5.next }) = h6
  generalize e7 : (h6.alloc.2).setDirJp h4.next (some h6.next) = h7
  have n1 : h1.next = h.next + 1 := by subst e1; simp
  have n3 : h3.next = h.next + 2 := by subst e3 e2; simp [n1]
  have n4 : h4.next = h.next + 3 := by subst e4; simp [n3]
  have n5 : h5.next = h.next + 4 := by subst e5; simp [n4]
  have n6 : h6.next = h.next + 5 := by subst e6; simp [n5]
  have s1 : h1.solver h.next = {} := by subst e1; simp
  have s2 : h2.solver h.next = {} := by subst e2; simp [s1, n1]
  have s3 : h3.solver h.next = { itperf := some (h.next + 1) } := by subst e3; simp [s2, n1]
  have s4 : h4.solver h.next = { itperf := some (h.next + 1) } := by subst e4; simp [s3, n3]
  have s5 : h5.solver h.next = { itperf := some (h.next + 1) } := by subst e5; simp [s4, n4]
  have s6 : h6.solver h.next = { itperf := some (h.next + 1) } := by subst e6; simp [s5, n5]
  have s7 : h7.solver h.next = { itperf := some (h.next + 1) } := by subst e7; simp [s6, n6]
  have p2 : h2.perf (h.next + 1) = {} := by subst e2; simp [n1]
  have p3 : h3.perf (h.next + 1) = {} := by subst e3; simp [p2]
  have p4 : h4.perf (h.next + 1) = { est := some (h.next + 2) } := by subst e4; simp [n1, n3, p3]
  have p5 : h5.perf (h.next + 1) = { est := some (h.next + 2), ddir := some (h.next + 3) } := by
    subst e5; simp [n1, n4, p4]
  have p6 : h6.perf (h.next + 1) = { est := some (h.next + 2), ddir := some (h.next + 3), ls := some (h.next + 4) } := by
    subst e6; simp [n1, n5, p5]
  have p7 : h7.perf (h.next + 1) = { est := some (h.next + 2), ddir := some (h.next + 3), ls := some (h.next + 4) } := by
    subst e7; simp [n6, p6]
  have d5 : h5.dir (h.next + 3) = {} := by subst e5; simp [n4]
  have d6 : h6.dir (h.next + 3) = {} := by subst e6; simp [n5, d5]
  have d7 : h7.dir (h.next + 3) = { jp := some (h.next + 5) } := by subst e7; simp [n4, n6, d6]
  have j7 : h7.jp (h.next + 5) = {} := by subst e7; simp [n4, n6, d6]
  have l6 : h6.ls (h.next + 4) = none := by subst e6; simp [n5]
  have l7 : h7.ls (h.next + 4) = none := by subst e7; simp [n6, l6]
  refine ⟨h7, ?_, ⟨h.next + 1, h.next + 2, h.next + 3, h.next + 5, h.next + 4, by simp [s7, p7, d7]⟩, ?_, s7, ?_, ?_⟩
  · have c3 : h2.setComponent h.next (.itperf (some h1.next)) = .ok h3 := by rw [call_itperf (by simp [s2]), e3]
    have c4 : h3.alloc.2.setComponent h.next (.est (some h3.next)) = .ok h4 := by
      rw [call_est (p := h1.next) (by simp [s3, n3, n1]), ← e4]; simp [s3, n3, Heap.ifReg]
    have c5 : h4.alloc.2.setComponent h.next (.ddir (some h4.next)) = .ok h5 := by
      rw [call_ddir (p := h1.next) (by simp [s4, n4, n1]), ← e5]; simp [s4, n4, n1, p4, Heap.ifReg]
    have c6 : h5.alloc.2.setComponent h.next (.ls (some h5.next)) = .ok h6 := by
      rw [call_ls (p := h1.next) (by simp [s5, n5, n1]), ← e6]; simp [n5, n1, p5]
    have c7 : h6.alloc.2.setComponent h.next (.jp (some h6.next)) = .ok h7 := by
      rw [call_jp (p := h1.next) (d := h4.next) (by simp [s6, n6, n1]) (by simp [n6, n1, p6, n4]), ← e7]
    simp only [Heap.newSolver, alloc_fst, e1, e2, bind_ok, c3, c4, c5, c6, c7]
  · intro p hp
    simp only [s7, Option.some.injEq] at hp
    subst hp
    simp [p7, l7, d7, j7]
  · subst e7; simp [n6]
  · intro d hd
    have x1 : d ≠ h.next := by omega
    have x2 : d ≠ h.next + 1 := by omega
    have x3 : d ≠ h.next + 2 := by omega
    have x4 : d ≠ h.next + 3 := by omega
    have x5 : d ≠ h.next + 4 := by omega
    have x6 : d ≠ h.next + 5 := by omega
    subst e7 e6 e5 e4 e3 e2 e1
    simp at n3 n4 n5 n6 d6 d5 ⊢
    simp [x1, x2, x3, x4, x5, x6, Ne.symm x6]

end Verif.Wiring
