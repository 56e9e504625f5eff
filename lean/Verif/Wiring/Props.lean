import Verif.Wiring.Lemmas
import Verif.Witness
import Mathlib.Logic.Relation

/-
C107 and C108: how the components of a Newton solver stay connected under calls of `setComponent`.
-/

namespace Verif.Wiring

open Verif.Res

set_option linter.unusedSimpArgs false

/-! ### C107: all components work on the same equation -/

theorem bind_inv {α β : Type} {x : Res α} {f : α → Res β} {r : β} (h : (x >>= f) = .ok r) :
    ∃ a, x = .ok a ∧ f a = .ok r := by
  cases x with
  | error _ => exact absurd h (by simp [bind, Except.bind])
  | ok a => exact ⟨a, rfl, h⟩

/-- The mapping in use after several calls -/
def lastMapping (m : Ref) : List Comp → Ref
  | [] => m
  | c :: cs => lastMapping (c.mappingAfter m) cs

theorem agree_steps {s : Nat} : ∀ {cs : List Comp} {h h' : Heap} {m : Ref}, Agree h s m → (∀ c ∈ cs, ¬ c.Itperf) →
    h.setComponents s cs = .ok h' → Agree h' s (lastMapping m cs)
  | [], h, h', m, ha, _, e => by
    cases e
    exact ha
  | c :: cs, h, h', m, ha, hc, e => by
    obtain ⟨h1, e1, e2⟩ := bind_inv e
    exact agree_steps (cs := cs) (agree_step ha (hc c (by simp)) e1) (fun x hx => hc x (by simp [hx])) e2

/-- C107, without replacing the iteration performer: whatever the components of a solver were connected to before, once
its mapping has been set, then after any calls of `setComponent` that do not replace the performer, all components in
use have the mapping set last; so the residual, the Jacobian and the line search are of the same equation. -/
theorem C107_partial {h h1 h2 : Heap} {s : Nat} {m : Ref} {cs : List Comp} (e : h.setComponent s (.mapping m) = .ok h1)
    (hc : ∀ c ∈ cs, ¬ c.Itperf) (e2 : h1.setComponents s cs = .ok h2) : Agree h2 s (lastMapping m cs) ∧
    ∀ a b c, h2.equations s = .ok (a, b, c) → lastMapping m cs = some a ∧ b = a ∧ c = a := by
  have ha := agree_steps (agree_mapping e) hc e2
  refine ⟨ha, fun a b c he => ?_⟩
  obtain ⟨-, p, d, j, l, h1, h2, h3, h4, h5, h6, h7⟩ := equations_inv he
  obtain ⟨a1, a2, a3⟩ := ha p h1
  obtain ⟨-, a4⟩ := a3 d h2
  have b1 := (a4 j h3).1
  have b2 := a2 l h4
  rw [h5] at a1
  rw [h6, ← a1] at b1
  rw [h7, ← a1] at b2
  exact ⟨a1.symm, by simpa using b1, by simpa using b2⟩

/-- The regularization strategy always refers to the error estimator and the descent direction in use, whatever
components have been set. -/
theorem C107_regularization {h h1 h2 : Heap} {s : Nat} {cs : List Comp} (e : h.newSolver = .ok (s, h1))
    (e2 : h1.setComponents s cs = .ok h2) : RegOk h2 s := by
  obtain ⟨h', e', -, -, hs, -⟩ := newSolver_ok h
  rw [e'] at e
  cases e
  have hr : RegOk h1 h.next := fun p r _ hr => by simp [hs] at hr
  clear hs e'
  induction cs generalizing h1 with
  | nil => cases e2; exact hr
  | cons c cs ih =>
    obtain ⟨h3, e3, e4⟩ := bind_inv e2
    exact ih e4 (reg_step hr e3)

/-- C107 is false when the performer is replaced: the solver works on equation 7, gets a performer with all of its
components (made for another solver, without an equation), and has lost the equation; a run is undefined. -/
theorem C107_false : ∃ s1 s2 h1 h2 h3 h4, Heap.empty.newSolver = .ok (s1, h1) ∧ h1.newSolver = .ok (s2, h2) ∧
    h2.setComponent s1 (.mapping (some 7)) = .ok h3 ∧ h3.equations s1 = .ok (7, 7, 7) ∧
    h3.setComponent s1 (.itperf (h3.solver s2).itperf) = .ok h4 ∧ Complete h4 s1 ∧ h4.equations s1 = .error .ub := by
  refine ⟨0, 6, _, _, _, _, rfl, rfl, rfl, by decide +kernel, rfl, ⟨7, 8, 9, 11, 10, ?_⟩, by decide +kernel⟩
  decide +kernel

/-- C107 is false for a descent direction shared by two solvers: the first then has the residual of its own equation
and the Jacobian of the other's. -/
theorem C107_shared_false : ∃ s1 s2 h1 h2 h3, Heap.empty.newSolver = .ok (s1, h1) ∧ h1.newSolver = .ok (s2, h2) ∧
    h2.setComponents s1 [.mapping (some 7)] = .ok h3 ∧ h3.equations s1 = .ok (7, 7, 7) ∧
    ∃ p h4, (h3.solver s1).itperf = some p ∧
      h3.setComponents s2 [.mapping (some 8), .ddir (h3.perf p).ddir] = .ok h4 ∧ h4.equations s1 = .ok (7, 8, 7) ∧
      h4.equations s2 = .ok (8, 8, 8) := by
  refine ⟨0, 6, _, _, _, rfl, rfl, rfl, by decide +kernel, 1, _, by decide +kernel, rfl, by decide +kernel, by decide +kernel⟩

/-- The hypotheses of `C107_partial` are met: a new solver, its mapping, another direction with its provider, a trimmer,
a regularization strategy, and another mapping -/
example : ∃ s h h1 h2, Heap.empty.newSolver = .ok (s, h) ∧ h.setComponent s (.mapping (some 7)) = .ok h1 ∧
    h1.setComponents s [.ddir (some 20), .jp (some 21), .trimmer (some 22), .reg (some 23), .mapping (some 8)] =
      .ok h2 ∧ h2.equations s = .ok (8, 8, 8) ∧ h2.trimmer 22 = some 8 ∧ (h2.reg 23).ddir = some 20 :=
  ⟨0, _, _, _, rfl, rfl, rfl, by decide +kernel, by decide +kernel, by decide +kernel⟩

/-! ### Independence of solvers -/

/-- An object of the wiring -/
inductive Obj
  | perf (n : Nat)
  | dir (n : Nat)
  | jp (n : Nat)
  | ls (n : Nat)
  | trimmer (n : Nat)
  | reg (n : Nat)
  | solver (n : Nat)

/-- The first object has a pointer to the second. -/
inductive Points (h : Heap) : Obj → Obj → Prop
  | itperf {s p} : (h.solver s).itperf = some p → Points h (.solver s) (.perf p)
  | reg {s r} : (h.solver s).reg = some r → Points h (.solver s) (.reg r)
  | ddir {p d} : (h.perf p).ddir = some d → Points h (.perf p) (.dir d)
  | ls {p l} : (h.perf p).ls = some l → Points h (.perf p) (.ls l)
  | jp {d j} : (h.dir d).jp = some j → Points h (.dir d) (.jp j)
  | trimmer {j t} : (h.jp j).trimmer = some t → Points h (.jp j) (.trimmer t)
  | regDir {r d} : (h.reg r).ddir = some d → Points h (.reg r) (.dir d)

/-- The object given to a call -/
inductive Comp.Gives : Comp → Obj → Prop
  | itperf {p} : Gives (.itperf (some p)) (.perf p)
  | ddir {d} : Gives (.ddir (some d)) (.dir d)
  | jp {j} : Gives (.jp (some j)) (.jp j)
  | ls {l} : Gives (.ls (some l)) (.ls l)
  | reg {r} : Gives (.reg (some r)) (.reg r)
  | trimmer {t} : Gives (.trimmer (some t)) (.trimmer t)

/-- `o` can be reached from solver `s`, or from the object given to a call. -/
def Touched (h : Heap) (s : Nat) (c : Comp) (o : Obj) : Prop :=
  Relation.ReflTransGen (Points h) (.solver s) o ∨ ∃ g, c.Gives g ∧ Relation.ReflTransGen (Points h) g o

/-- The object is the same in both. -/
def Same (h h' : Heap) : Obj → Prop
  | .perf n => h'.perf n = h.perf n
  | .dir n => h'.dir n = h.dir n
  | .jp n => h'.jp n = h.jp n
  | .ls n => h'.ls n = h.ls n
  | .trimmer n => h'.trimmer n = h.trimmer n
  | .reg n => h'.reg n = h.reg n
  | .solver n => h'.solver n = h.solver n

open Relation in
/-- A call of `setComponent` changes no objects but those that can be reached from the solver or from the object given. -/
theorem C107_frame {h h' : Heap} {s : Nat} {c : Comp} (e : h.setComponent s c = .ok h') {o : Obj}
    (ho : ¬ Touched h s c o) : Same h h' o := by
  have i := setComponent_inv e
  have o1 : o ≠ .solver s := fun x => ho (x ▸ Or.inl .refl)
  have o2 : ∀ p, (h.solver s).itperf = some p → o ≠ .perf p := fun p hp x => ho (x ▸ Or.inl (.single (.itperf hp)))
  have o3 : ∀ p, (h.solver s).reg = some p → o ≠ .reg p := fun p hp x => ho (x ▸ Or.inl (.single (.reg hp)))
  have o4 : ∀ p d, (h.solver s).itperf = some p → (h.perf p).ddir = some d → o ≠ .dir d :=
    fun p d hp hd x => ho (x ▸ Or.inl (.tail (.single (.itperf hp)) (.ddir hd)))
  have o5 : ∀ p d, (h.solver s).itperf = some p → (h.perf p).ls = some d → o ≠ .ls d :=
    fun p d hp hd x => ho (x ▸ Or.inl (.tail (.single (.itperf hp)) (.ls hd)))
  have o6 : ∀ p d j, (h.solver s).itperf = some p → (h.perf p).ddir = some d → (h.dir d).jp = some j → o ≠ .jp j :=
    fun p d j hp hd hj x => ho (x ▸ Or.inl (.tail (.tail (.single (.itperf hp)) (.ddir hd)) (.jp hj)))
  have o7 : ∀ p d j t, (h.solver s).itperf = some p → (h.perf p).ddir = some d → (h.dir d).jp = some j →
      (h.jp j).trimmer = some t → o ≠ .trimmer t :=
    fun p d j t hp hd hj ht x =>
      ho (x ▸ Or.inl (.tail (.tail (.tail (.single (.itperf hp)) (.ddir hd)) (.jp hj)) (.trimmer ht)))
  have o8 : ∀ g, c.Gives g → o ≠ g := fun g hg x => ho (x ▸ Or.inr ⟨g, hg, .refl⟩)
  have o9 : ∀ d j, c.Gives (.dir d) → (h.dir d).jp = some j → o ≠ .jp j :=
    fun d j hg hj x => ho (x ▸ Or.inr ⟨_, hg, .single (.jp hj)⟩)
  have o10 : ∀ d j t, c.Gives (.dir d) → (h.dir d).jp = some j → (h.jp j).trimmer = some t → o ≠ .trimmer t :=
    fun d j t hg hj ht x => ho (x ▸ Or.inr ⟨_, hg, .tail (.single (.jp hj)) (.trimmer ht)⟩)
  have o11 : ∀ j t, c.Gives (.jp j) → (h.jp j).trimmer = some t → o ≠ .trimmer t :=
    fun j t hg ht x => ho (x ▸ Or.inr ⟨_, hg, .single (.trimmer ht)⟩)
  cases c <;> simp only at i
  case itperf q =>
    obtain ⟨hp, rfl⟩ | ⟨r, q, hr, rfl, rfl⟩ := i <;> cases o <;> simp [Same, Option.bind_eq_some_iff] <;> grind
  case mapping q =>
    obtain ⟨hp, rfl⟩ | ⟨p, d, l, hp, hd, hl, rfl⟩ := i
    · cases o <;> rfl
    · cases o <;> simp [Same, Option.bind_eq_some_iff] <;> grind
  case est q =>
    obtain ⟨hp, rfl⟩ | ⟨p, hp, rfl⟩ := i <;> cases o <;> simp [Same, Option.bind_eq_some_iff] <;> grind
  case ddir q =>
    obtain ⟨hp, rfl⟩ | ⟨p, k, hp, rfl, rfl⟩ := i
    · cases o <;> simp [Same, Option.bind_eq_some_iff] <;> grind
    · have := o8 _ .ddir
      have := fun j => o9 k j .ddir
      have := fun j t => o10 k j t .ddir
      cases o <;> simp [Same, Option.bind_eq_some_iff] <;> grind
  case jp q =>
    obtain ⟨hp, rfl⟩ | ⟨p, k, hp, hd, rfl⟩ := i
    · cases o <;> rfl
    · cases q with
      | none => cases o <;> simp [Same, Option.bind_eq_some_iff] <;> grind
      | some q =>
        have := o8 _ .jp
        have := fun t => o11 q t .jp
        cases o <;> simp [Same, Option.bind_eq_some_iff] <;> grind
  case ls q =>
    obtain ⟨hp, rfl⟩ | ⟨p, k, hp, rfl, rfl⟩ := i
    · cases o <;> rfl
    · have := o8 _ .ls
      cases o <;> simp [Same, Option.bind_eq_some_iff] <;> grind
  case reg q =>
    obtain ⟨hp, rfl⟩ | ⟨p, k, hp, rfl, rfl⟩ := i
    · cases o <;> simp [Same, Option.bind_eq_some_iff] <;> grind
    · have := o8 _ .reg
      cases o <;> simp [Same, Option.bind_eq_some_iff] <;> grind
  case trimmer q =>
    obtain ⟨hp, rfl⟩ | ⟨p, k, j, hp, hd, hj, rfl⟩ := i
    · cases o <;> rfl
    · cases q with
      | none => cases o <;> simp [Same, Option.bind_eq_some_iff] <;> grind
      | some q =>
        have := o8 _ .trimmer
        cases o <;> simp [Same, Option.bind_eq_some_iff] <;> grind

open Relation in
/-- C107 for several solvers: a call of `setComponent` of one solver leaves the equations of another one as they are, if
no object can be reached both from the other one and from the first one or the object given. -/
theorem C107_independent {h h' : Heap} {s s2 : Nat} {c : Comp} (e : h.setComponent s c = .ok h')
    (hd : ∀ o, ReflTransGen (Points h) (.solver s2) o → ¬ Touched h s c o) : h'.equations s2 = h.equations s2 := by
  have f : ∀ o, ReflTransGen (Points h) (.solver s2) o → Same h h' o := fun o ho => C107_frame e (hd o ho)
  have f1 : h'.solver s2 = h.solver s2 := f _ .refl
  simp only [Heap.equations, f1]
  cases h1 : (h.solver s2).itperf with
  | none => rfl
  | some p =>
    have r1 := ReflTransGen.single (Points.itperf h1)
    have f2 : h'.perf p = h.perf p := f _ r1
    simp only [deref, bind_ok, f2]
    cases h3 : (h.perf p).ddir with
    | none => rfl
    | some d =>
      have r2 := r1.tail (Points.ddir h3)
      have f3 : h'.dir d = h.dir d := f _ r2
      simp only [bind_ok, f3]
      cases h4 : (h.dir d).jp with
      | none => rfl
      | some j =>
        have f4 : h'.jp j = h.jp j := f _ (r2.tail (Points.jp h4))
        simp only [bind_ok, f4]
        cases h5 : (h.perf p).ls with
        | none => rfl
        | some l =>
          have f5 : h'.ls l = h.ls l := f _ (r1.tail (Points.ls h5))
          simp only [bind_ok, f5]

/-- Two solvers with components of their own: numbers below 6 and numbers from 6 on -/
def two : Heap where
  next := 12
  perf n := if n = 1 then ⟨some 7, some 2, some 3, some 4⟩ else if n = 7 then ⟨none, some 8, some 9, some 10⟩ else {}
  dir n := if n = 3 then ⟨some 7, some 5⟩ else if n = 9 then ⟨none, some 11⟩ else {}
  jp n := if n = 5 then ⟨some 7, none⟩ else {}
  ls n := if n = 4 then some 7 else none
  trimmer _ := none
  reg _ := {}
  solver n := if n = 0 then { itperf := some 1 } else if n = 6 then { itperf := some 7 } else {}
  reorder _ := none

/-- The number of an object -/
def Obj.num : Obj → Nat
  | .perf n | .dir n | .jp n | .ls n | .trimmer n | .reg n | .solver n => n

open Relation in
/-- The hypotheses of `C107_independent` are met by calls for the second solver of `two`. -/
example {c : Comp} (hc : ∀ g, c.Gives g → 6 ≤ g.num) :
    ∀ o, ReflTransGen (Points two) (.solver 0) o → ¬ Touched two 6 c o := by
  have up : ∀ o o', Points two o o' → (o.num < 6 ↔ o'.num < 6) := by
    intro o o' hp
    cases hp <;> rename_i a b hp <;> simp only [two] at hp <;> simp only [Obj.num] <;> grind
  have all : ∀ o o', ReflTransGen (Points two) o o' → (o.num < 6 ↔ o'.num < 6) := by
    intro o o' hr
    induction hr with
    | refl => rfl
    | tail _ h ih => exact ih.trans (up _ _ h)
  intro o ho
  have h1 := (all _ _ ho).1 (by simp [Obj.num])
  rintro (h2 | ⟨g, hg, h2⟩)
  · have := (all _ _ h2).2 h1
    simp [Obj.num] at this
  · have := (all _ _ h2).2 h1
    have := hc g hg
    omega

example : ∃ h', two.setComponent 6 (.mapping (some 8)) = .ok h' ∧ h'.equations 0 = .ok (7, 7, 7) ∧
    h'.equations 6 = .ok (8, 8, 8) := ⟨_, rfl, by decide +kernel, by decide +kernel⟩

/-! ### C108: replacing a component leaves a solver that works -/

theorem keeps_steps {s : Nat} : ∀ {cs : List Comp} {h : Heap}, Complete h s → (∀ c ∈ cs, c.Keeps h) →
    ∃ h', h.setComponents s cs = .ok h' ∧ Complete h' s
  | [], h, hs, _ => ⟨h, rfl, hs⟩
  | c :: cs, h, hs, hc => by
    obtain ⟨h1, e1, c1, k1⟩ := keeps_step hs (hc c (by simp))
    obtain ⟨h2, e2, c2⟩ := keeps_steps (cs := cs) c1 (fun x hx => by
      have := hc x (by simp [hx])
      cases x <;> simp only [Comp.Keeps] at this ⊢ <;> try exact this
      obtain ⟨k, rfl, hk⟩ := this
      exact ⟨k, rfl, k1 k hk⟩)
    refine ⟨h2, ?_, c2⟩
    simp only [Heap.setComponents, e1, bind_ok, e2]

/-- C108, for calls that give objects, do not replace the performer, and only give directions that have a Jacobian
provider: from the constructor on, all calls are defined, and once a mapping has been set, a run uses it everywhere. -/
theorem C108_partial (h : Heap) : ∃ s h1, h.newSolver = .ok (s, h1) ∧ ∀ cs : List Comp, (∀ c ∈ cs, c.Keeps h1) →
    ∃ h2, h1.setComponents s cs = .ok h2 ∧ ∀ m, lastMapping none cs = some m → h2.equations s = .ok (m, m, m) := by
  obtain ⟨h1, e1, c1, a1, -⟩ := newSolver_ok h
  refine ⟨_, h1, e1, fun cs hc => ?_⟩
  obtain ⟨h2, e2, c2⟩ := keeps_steps c1 hc
  refine ⟨h2, e2, fun m hm => equations_complete c2 (hm ▸ agree_steps a1 (fun c h => ?_) e2)⟩
  have := hc c h
  cases c <;> simp_all [Comp.Keeps, Comp.Itperf]

/-- C108 is false for a descent direction, which is created without a Jacobian provider: a solver that works loses the
provider it had when it gets the new direction, and a run dereferences a null pointer. Setting the provider once more
repairs it. -/
theorem C108_ddir_false (h : Heap) : ∃ s h1 h2, h.newSolver = .ok (s, h1) ∧
    h1.setComponent s (.mapping (some 7)) = .ok h2 ∧ h2.equations s = .ok (7, 7, 7) ∧ ∀ d, (h2.dir d).jp = none →
      ∃ h3, h2.setComponent s (.ddir (some d)) = .ok h3 ∧ h3.equations s = .error .ub ∧
        ∀ j, ∃ h4, h3.setComponent s (.jp (some j)) = .ok h4 ∧ h4.equations s = .ok (7, 7, 7) := by
  obtain ⟨h1, e1, c1, a1, -⟩ := newSolver_ok h
  obtain ⟨h2, e2, c2, -⟩ := keeps_step (c := .mapping (some 7)) c1 trivial
  have a2 := agree_mapping e2
  refine ⟨_, h1, h2, e1, e2, equations_complete c2 a2, fun d hd => ?_⟩
  obtain ⟨p, e, d0, j0, l, b1, b2, b3, b4, b5⟩ := c2
  have e3 := call_ddir (d := d) b1
  have a3 := agree_step a2 (by simp [Comp.Itperf]) e3
  simp only [Comp.mappingAfter] at a3
  generalize e4 : (((h2.setDirMapping d (h2.perf p).mapping).setPerf p ({ · with ddir := some d })).ifReg
    (h2.solver h.next).reg ({ · with ddir := some d })) = h3 at e3 a3
  have g1 : (h3.solver h.next).itperf = some p := by subst e4; simp [b1]
  have g2 : (h3.perf p).ddir = some d := by subst e4; simp
  have g3 : (h3.dir d).jp = none := by subst e4; simp [hd]
  have g4 : (h3.perf p).est = some e := by subst e4; simp [b2]
  have g5 : (h3.perf p).ls = some l := by subst e4; simp [b5]
  refine ⟨h3, e3, ?_, fun j => ?_⟩
  · simp [Heap.equations, g1, g2, g3, g4, (a3 p g1).1, deref, bind, Except.bind]
  · have e5 := call_jp (j := some j) g1 g2
    refine ⟨_, e5, equations_complete ⟨p, e, d, j, l, by simp [g1, g2, g4, g5]⟩ ?_⟩
    exact agree_step a3 (by simp [Comp.Itperf]) e5

/-- The hypotheses of `C108_partial` are met by a direction that has a provider, and those of `C108_ddir_false` by a new
direction. -/
example : ∃ h1, Heap.empty.newSolver = .ok (0, h1) ∧ (h1.dir 50).jp = none ∧
    (∀ c ∈ [Comp.est (some 20), .jp (some 21), .mapping (some 7), .ddir (some 3), .ls (some 22), .reg none],
      c.Keeps h1) ∧ lastMapping none [Comp.est (some 20), .jp (some 21), .mapping (some 7), .ddir (some 3),
        .ls (some 22), .reg none] = some 7 := by
  refine ⟨_, rfl, by decide +kernel, ?_, rfl⟩
  intro c hc
  simp only [List.mem_cons, List.not_mem_nil, or_false] at hc
  rcases hc with rfl | rfl | rfl | rfl | rfl | rfl
  · rfl
  · rfl
  · trivial
  · exact ⟨3, rfl, by decide +kernel⟩
  · rfl
  · trivial

end Verif.Wiring
