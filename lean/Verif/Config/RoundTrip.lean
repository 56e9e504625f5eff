import Verif.Config.Model
import Verif.Infra.ValueProps
import Verif.Driver.InitProps

/-
C117: what `parameters` returns, given to `setParameters`, restores the settings (with real numbers rounded as their texts
are).
-/

set_option linter.unusedSectionVars false
set_option linter.unnecessarySeqFocus false

namespace Verif.Config

open Verif.Infra Verif.Driver Verif.TestModels Verif.Res

section
variable {R : Type} [Field R]

/-! ### Settings with rounded numbers -/

/-- All numbers rounded -/
def StepCtl.map (r : R → R) (c : StepCtl R) : StepCtl R :=
  ⟨r c.tolerance, r c.insurance, r c.incMin, r c.incMax, r c.decMax, r c.maxThreshold⟩

/-- All numbers rounded -/
def Trim.map (r : R → R) : Trim R → Trim R
  | .width w => .width w
  | .threshold x => .threshold (r x)

/-- All numbers rounded -/
def Est.map (r : R → R) (e : Est R) : Est R := ⟨r e.absTol, r e.relTol, r e.absMax, r e.relMax⟩

/-- All numbers rounded -/
def Newton.map (r : R → R) (n : Newton R) : Newton R :=
  { n with itperf := n.itperf.map fun p =>
      ⟨p.ddir.map fun d => { d with jp := d.jp.map fun j => { j with trimmer := j.trimmer.map (Trim.map r) } }, p.search,
        p.est.map (Est.map r)⟩ }

/-- All numbers rounded -/
def Base.map (r : R → R) (b : Base R) : Base R := ⟨r b.hInit, r b.hMin⟩

/-- All numbers rounded -/
def Ctl.map (r : R → R) (c : Ctl R) : Ctl R := { c with stepCtl := c.stepCtl.map (StepCtl.map r) }

/-- All numbers rounded -/
def Solver.map (r : R → R) : Solver R → Solver R
  | .null => .null
  | .fixed k b ec => .fixed k (b.map r) ec
  | .embedded k b c ec s => .embedded k (b.map r) (c.map r) ec { s with hAfter := r s.hAfter }
  | .w1 b t ec d => .w1 (b.map r) (t.map (Trim.map r)) ec (r d)
  | .sw24 b t c ec d e => .sw24 (b.map r) (t.map (Trim.map r)) (c.map r) ec (r d) e
  | .gragg b ec s => .gragg (b.map r) ec s
  | .extrapolator b c ec s q ref => .extrapolator (b.map r) (c.map r) ec s q (ref.map r)
  | .implicit b n ec a pr k re => .implicit (b.map r) (n.map r) ec (r a) (pr.map r) k re

/-- All numbers rounded -/
def Model.map (r : R → R) : Model R → Model R
  | .oscillator c f => .oscillator (r c) (r f)
  | .coupled n c0 c2 f => .coupled n (r c0) (r c2) (r f)
  | .stiff a => .stiff (r a)
  | .sliding k m f0 v0 F1 F2 w => .sliding k (r m) (r f0) (r v0) (r F1) (r F2) (r w)
  | .ball g c s st => .ball (r g) (r c) (r s) st

/-- All numbers rounded -/
def initMap (r : R → R) (s : InitState R) : InitState R := ⟨r s.time, s.x.map r⟩

/-- All numbers rounded -/
def Provider.map (r : R → R) (p : Provider R) : Provider R :=
  { p with
    rhs := p.rhs.map (Model.map r)
    solver := p.solver.map r
    ref := p.ref.map r
    time := r p.time
    timing := r p.timing
    init := p.init.map (initMap r) }

/-! ### Settings that can be saved -/

/-- The number fits its type -/
def Trim.Good : Trim R → Prop
  | .width w => w < 2 ^ 32
  | .threshold _ => True

/-- The number fits its type -/
def DirKind.Good : DirKind → Prop
  | .lazy n => n < 2 ^ 32
  | _ => True

/-- A Newton solver with a performer has a direction, a Jacobian provider and a line search. -/
def Newton.Good (n : Newton R) : Prop :=
  n.limit < 2 ^ 32 ∧ ∀ p ∈ n.itperf, p.search ≠ none ∧ ∃ d j, p.ddir = some d ∧ d.jp = some j ∧ d.kind.Good ∧
    ∀ t ∈ j.trimmer, t.Good

/-- Error norm calculators are there, numbers fit, Newton solvers are complete, nothing is reordered. -/
def Solver.Good : Solver R → Prop
  | .null => True
  | .fixed .. => True
  | .embedded _ _ c _ _ => c.enorm ≠ none
  | .w1 _ t _ _ => ∀ x ∈ t, x.Good
  | .sw24 _ t c _ _ _ => c.enorm ≠ none ∧ ∀ x ∈ t, x.Good
  | .gragg .. => True
  | .extrapolator _ c _ s _ ref => c.enorm ≠ none ∧ s.stages < 2 ^ 32 ∧ ref.Good
  | .implicit _ n _ _ pr k re => n.Good ∧ pr.Good ∧ k < 2 ^ 32 ∧ re = false

/-- The number fits its type, a ball does not stick. -/
def Model.Good : Model R → Prop
  | .coupled n _ _ _ => n < 2 ^ 32
  | .ball _ _ _ st => st = false
  | _ => True

/-- The number fits its type. -/
def Output.Good : Output → Prop
  | .solution _ n => n < 2 ^ 32
  | .columnwise _ n => n < 2 ^ 32
  | _ => True

/-- Settings that can be saved and loaded -/
structure Provider.Good (p : Provider R) : Prop where
  rhs : ∀ m ∈ p.rhs, m.Good
  solver : p.solver.Good
  ref : p.ref.Good
  stats : ∀ o ∈ p.stats, o.Good
  con : ∀ o ∈ p.con, o.Good
  file : ∀ o ∈ p.file, o.Good
  init : ∀ s ∈ p.init, s.x.length < 2 ^ 31

/-! ### Lookup -/

theorem find_put (P : Params) (k a : String) (v : Tree) :
    findKV a (P.put k v) = if k = a then some v else findKV a P := find_insert ..

theorem find_nil (a : String) : findKV a Params.nil = none := rfl

theorem load_node {α : Type} (new : Text → Res α) (set : Params → α → Res α) (id : String) (P : Params) (x : α)
    (hid : id.toList ≠ []) (hn : new id.toList = .ok x) :
    asPtr new set (obj id P) = (set P x >>= fun y => .ok (some y)) := by
  simp [asPtr, obj, hid, hn]

theorem ptr_some {α : Type} (f : α → Tree) (x : α) : ptr f (some x) = f x := rfl

theorem load_null {α : Type} (new : Text → Res α) (set : Params → α → Res α) :
    asPtr new set Config.null = .ok none := rfl

theorem unsigned_ok {n : Nat} (h : n < 2 ^ 32) : toUnsigned (ofUnsigned n) = .ok n := C74_unsigned_partial.1 n h

theorem bool_ok (b : Bool) : toBool (ofBool b) = .ok b := C74_bool.1 b

variable {F : Fmt R} {r : R → R} (hF : ∀ x, F.get (F.put x) = .ok (r x))
include hF

theorem StepCtl.set_params (c y : StepCtl R) : y.set F (c.params F) = .ok (c.map r) := by
  simp [StepCtl.set, StepCtl.params, maybeLoad, maybeSet, find_put, leaf, Tree.text, hF, StepCtl.map]

theorem StepCtl.load_ptr (c : Option (StepCtl R)) :
    asPtr StepCtl.new (StepCtl.set F) (ptr (fun s => obj "simple" (s.params F)) c) = .ok (c.map (StepCtl.map r)) := by
  cases c with
  | none => rfl
  | some c =>
    simp only [ptr]
    rw [load_node _ _ _ _ StepCtl.init (by decide) (by rfl), StepCtl.set_params hF]
    rfl

theorem Trim.load_ptr (t : Option (Trim R)) (h : ∀ x ∈ t, x.Good) :
    asPtr Trim.new (Trim.set F) (ptr (Trim.tree F) t) = .ok (t.map (Trim.map r)) := by
  cases t with
  | none => rfl
  | some t =>
    have h := h t rfl
    cases t with
    | width w =>
      simp only [ptr, Trim.tree]
      rw [load_node _ _ _ _ (.width 0) (by decide) (by rfl)]
      simp [Trim.set, maybeLoad, maybeSet, find_put, leaf, Tree.text, asUnsigned, unsigned_ok h, Trim.map]
    | threshold x =>
      simp only [ptr, Trim.tree]
      rw [load_node _ _ _ _ (.threshold 0) (by decide) (by rfl)]
      simp [Trim.set, maybeLoad, maybeSet, find_put, leaf, Tree.text, hF, Trim.map]

theorem Est.set_params (c y : Est R) : y.set F (c.params F) = .ok (c.map r) := by
  simp [Est.set, Est.params, maybeLoad, maybeSet, find_put, leaf, Tree.text, hF, Est.map]

theorem Est.load_ptr (c : Option (Est R)) :
    asPtr Est.new (Est.set F) (ptr (fun s => obj "simple" (s.params F)) c) = .ok (c.map (Est.map r)) := by
  cases c with
  | none => rfl
  | some c =>
    simp only [ptr]
    rw [load_node _ _ _ _ _ (by decide) (by rfl), Est.set_params hF]
    rfl

omit hF

theorem ErrNorm.load_ptr (c : Option ErrNorm) :
    asPtr ErrNorm.new (fun _ e => .ok e) (ptr (fun _ => obj "inf" Params.nil) c) = .ok c := by
  rcases c with _ | ⟨⟩ <;> rfl

theorem EvCtl.load_ptr (c : Option EvCtl) :
    asPtr EvCtl.new (fun _ e => .ok e) (ptr (fun _ => obj "linear" Params.nil) c) = .ok c := by
  rcases c with _ | ⟨⟩ <;> rfl

theorem Search.load_ptr (c : Option Search) :
    asPtr Search.new (fun _ e => .ok e) (ptr (fun _ => obj "simple" Params.nil) c) = .ok c := by
  rcases c with _ | ⟨⟩ <;> rfl

theorem Seq.load_ptr (c : Option Seq) :
    asPtr Seq.new (fun _ e => .ok e) (ptr (fun q => .node q.id.toList none) c) = .ok c := by
  rcases c with _ | (_ | _ | _) <;> simp only [ptr, Seq.id] <;> rfl

theorem JpKind.load_ptr (j : Option (Jp R)) :
    asPtr JpKind.new (fun _ e => .ok e) (ptr (fun j => .node j.kind.id.toList none) j) = .ok (j.map (·.kind)) := by
  rcases j with _ | ⟨_ | _, t⟩ <;> simp only [ptr, JpKind.id] <;> rfl

theorem Perf.load_ptr (p : Option (Perf R)) :
    asPtr (α := Perf R) Perf.new (fun _ e => .ok e) (ptr (fun _ => obj "default" Params.nil) p) =
      .ok (p.map fun _ => (⟨none, none, none⟩ : Perf R)) := by
  cases p <;> rfl

theorem DirKind.load_ptr (d : Option (Dir R)) (h : ∀ x ∈ d, x.kind.Good) :
    asPtr DirKind.new DirKind.set (ptr (fun d => d.kind.tree) d) = .ok (d.map (·.kind)) := by
  rcases d with _ | ⟨⟨⟩, j⟩ <;> try rfl
  rename_i n
  have h : n < 2 ^ 32 := h _ rfl
  simp only [ptr, DirKind.tree]
  rw [load_node _ _ _ _ (.lazy 10) (by decide) (by rfl)]
  simp [DirKind.set, maybeLoad, maybeSet, find_put, leaf, Tree.text, asUnsigned, unsigned_ok h]

include hF

theorem Newton.set_params (n : Newton R) (hn : n.Good) :
    ∃ P, n.params F = .ok P ∧ (∀ y : Newton R, y.set F P = .ok (n.map r)) ∧ (n.map r).connect = .ok () := by
  obtain ⟨it, lim⟩ := n
  obtain ⟨hl, hg⟩ := hn
  simp only at hl hg
  cases it with
  | none =>
    refine ⟨_, rfl, fun y => ?_, rfl⟩
    simp [Newton.set, maybeLoad, maybeSet, find_put, ptr, load_null, leaf, Tree.text, asUnsigned, unsigned_ok hl, Newton.map]
  | some p =>
    obtain ⟨dd, se, es⟩ := p
    obtain ⟨hs, d, j, rfl, hj, hk, ht⟩ := hg _ rfl
    obtain ⟨k, jj⟩ := d
    simp only at hj hk hs
    subst hj
    obtain ⟨jk, t⟩ := j
    simp only at ht
    obtain ⟨s, rfl⟩ := Option.ne_none_iff_exists'.1 hs
    refine ⟨_, rfl, fun y => ?_, rfl⟩
    have h1 := Perf.load_ptr (some (⟨some ⟨k, some ⟨jk, t⟩⟩, some s, es⟩ : Perf R))
    have h2 := DirKind.load_ptr (some (⟨k, some ⟨jk, t⟩⟩ : Dir R)) (by simpa using hk)
    have h3 := JpKind.load_ptr (some (⟨jk, t⟩ : Jp R))
    have h4 := Search.load_ptr (some s)
    have h5 := Est.load_ptr hF es
    have h6 := Trim.load_ptr hF t ht
    simp only [ptr_some] at h1 h2 h3 h4
    simp [Newton.set, maybeLoad, maybeSet, find_put, h1, h2, h3, h4, h5, h6, load_null, leaf, Tree.text, asUnsigned,
      unsigned_ok hl, Newton.map, Perf.set, Dir.set, Jp.setTrim, notNull, ptr_some]

omit hF

/-- Loading gives what setting parameters on a solver of the class gives -/
theorem Solver.load_obj (s y : Solver R) (P : Params) (hid : s.id.toList ≠ []) (hn : Solver.new s.id.toList = .ok y) :
    Solver.load F (obj s.id P) = y.set F P := by
  rw [obj, Solver.load]
  simp only [if_neg hid, hn, bind_ok]
  unfold Solver.set
  congr 1
  funext k
  cases h : findKV k P <;> rfl

theorem Ctl.good (c : Ctl R) (h : c.enorm ≠ none) : c.enorm = some .inf := by
  rcases hc : c.enorm with _ | ⟨⟩
  · exact absurd hc h
  · rfl

/-- A new solver of the class of a solver -/
theorem Solver.new_id (s : Solver R) (h : s ≠ .null) :
    s.id.toList ≠ [] ∧ ∃ y : Solver R, Solver.new s.id.toList = .ok y ∧ y.id = s.id := by
  rcases s with _ | ⟨⟨⟩, _, _⟩ | ⟨⟨⟩, _, _, _, _⟩ | _ | _ | _ | _ | _
  · exact absurd rfl h
  all_goals
    refine ⟨by simp only [Solver.id]; decide, ?_⟩
    simp only [Solver.id]
    exact ⟨_, (rfl : Solver.new _ = _), by rfl⟩

theorem Solver.node_obj (s : Solver R) (h : s ≠ .null) (P : Params) : s.node P = obj s.id P := by
  cases s <;> first | rfl | exact absurd rfl h

/-- From setting parameters to loading -/
theorem Solver.load_of_set (s : Solver R) (P : Params) (v : Res (Solver R)) (hv : s = .null → v = .ok .null)
    (h : ∀ y : Solver R, y.id = s.id → y.set F P = v) : Solver.load F (s.node P) = v := by
  by_cases hs : s = .null
  · subst hs
    rw [hv rfl, Solver.node, Config.null, Solver.load]
    rfl
  · obtain ⟨h1, y, h2, h3⟩ := Solver.new_id s hs
    rw [Solver.node_obj s hs, Solver.load_obj s y P h1 h2, h y h3]

include hF

/-- What `parameters` of a solver returns, given to `setParameters` of any solver of the same class, restores the settings;
likewise for a value that is the solver. -/
theorem Solver.set_params (s : Solver R) (hs : s.Good) :
    ∃ P, s.params F = .ok P ∧ (∀ y : Solver R, y.id = s.id → y.set F P = .ok (s.map r)) ∧
      Solver.load F (s.node P) = .ok (s.map r) := by
  suffices h : ∃ P, s.params F = .ok P ∧ (∀ y : Solver R, y.id = s.id → y.set F P = .ok (s.map r)) by
    obtain ⟨P, h1, h2⟩ := h
    exact ⟨P, h1, h2, Solver.load_of_set s P _ (by rintro rfl; rfl) h2⟩
  induction s with
  | null =>
    refine ⟨_, rfl, fun y hy => ?_⟩
    rcases y with _ | ⟨⟨⟩, _, _⟩ | ⟨⟨⟩, _, _, _, _⟩ | _ | _ | _ | _ | _ <;> simp [Solver.id] at hy
    rfl
  | fixed k b ec =>
    refine ⟨_, rfl, fun y hy => ?_⟩
    have h1 := EvCtl.load_ptr ec
    rcases k <;> rcases y with _ | ⟨⟨⟩, _, _⟩ | ⟨⟨⟩, _, _, _, _⟩ | _ | _ | _ | _ | _ <;> simp [Solver.id] at hy <;>
    simp [Solver.set, Solver.setWith, Base.set, Base.params, loadEv, saveEv, maybeLoad, maybeSet, find_put, leaf, Tree.text,
      hF, h1, Solver.map, Base.map]
  | embedded k b c ec e =>
    refine ⟨_, rfl, fun y hy => ?_⟩
    obtain ⟨c1, c2⟩ := c
    obtain ⟨c0, rfl⟩ := Option.ne_none_iff_exists'.1 hs
    have h1 := EvCtl.load_ptr ec
    have h2 := ErrNorm.load_ptr (some c0)
    have h3 := StepCtl.load_ptr hF c2
    have h4 : ∀ b : Bool, asMode (.node (if b then ['h', 'i', 'g', 'h'] else ['l', 'o', 'w']) none) = .ok b := by
      rintro (_ | _) <;> rfl
    simp only [ptr_some] at h2
    rcases k <;> rcases y with _ | ⟨⟨⟩, _, _⟩ | ⟨⟨⟩, _, _, _, _⟩ | _ | _ | _ | _ | _ <;> simp [Solver.id] at hy <;>
    simp [Solver.set, Solver.setWith, Base.set, Base.params, loadEv, saveEv, Ctl.load, Ctl.save, maybeLoad, maybeSet, find_put,
      leaf, Tree.text, hF, h1, h2, h3, h4, Solver.map, Base.map, Ctl.map, ptr_some, notNull, asBool, bool_ok]
  | w1 b t ec d =>
    refine ⟨_, rfl, fun y hy => ?_⟩
    have h1 := EvCtl.load_ptr ec
    have h2 := Trim.load_ptr hF t hs
    rcases y with _ | ⟨⟨⟩, _, _⟩ | ⟨⟨⟩, _, _, _, _⟩ | _ | _ | _ | _ | _ <;> simp [Solver.id] at hy <;>
    simp [Solver.set, Solver.setWith, Base.set, Base.params, loadEv, saveEv, loadTrim, saveTrim, maybeLoad, maybeSet, find_put,
      leaf, Tree.text, hF, h1, h2, Solver.map, Base.map]
  | sw24 b t c ec d e =>
    refine ⟨_, rfl, fun y hy => ?_⟩
    obtain ⟨c1, c2⟩ := c
    obtain ⟨c0, rfl⟩ := Option.ne_none_iff_exists'.1 hs.1
    have h1 := EvCtl.load_ptr ec
    have h2 := ErrNorm.load_ptr (some c0)
    have h3 := StepCtl.load_ptr hF c2
    have h4 := Trim.load_ptr hF t hs.2
    simp only [ptr_some] at h2
    rcases y with _ | ⟨⟨⟩, _, _⟩ | ⟨⟨⟩, _, _, _, _⟩ | _ | _ | _ | _ | _ <;> simp [Solver.id] at hy <;>
    simp [Solver.set, Solver.setWith, Base.set, Base.params, loadEv, saveEv, loadTrim, saveTrim, Ctl.load, Ctl.save, maybeLoad,
      maybeSet, find_put, leaf, Tree.text, hF, h1, h2, h3, h4, Solver.map, Base.map, Ctl.map, ptr_some, notNull, asBool,
      bool_ok]
  | gragg b ec smooth =>
    refine ⟨_, rfl, fun y hy => ?_⟩
    have h1 := EvCtl.load_ptr ec
    rcases y with _ | ⟨⟨⟩, _, _⟩ | ⟨⟨⟩, _, _, _, _⟩ | _ | _ | _ | _ | _ <;> simp [Solver.id] at hy <;>
    simp [Solver.set, Solver.setWith, Base.set, Base.params, loadEv, saveEv, maybeLoad, maybeSet, find_put,
      leaf, Tree.text, hF, h1, Solver.map, Base.map, asBool, bool_ok]
  | extrapolator b c ec e seq ref ih =>
    obtain ⟨hc, hst, hr⟩ := hs
    obtain ⟨Q, hQ, hset⟩ := ih hr
    have hload := Solver.load_of_set ref Q _ (by rintro rfl; rfl) hset
    refine ⟨_, by rw [Solver.params]; simp only [hQ, bind_ok]; rfl, fun y hy => ?_⟩
    obtain ⟨c1, c2⟩ := c
    obtain ⟨c0, rfl⟩ := Option.ne_none_iff_exists'.1 hc
    have h1 := EvCtl.load_ptr ec
    have h2 := ErrNorm.load_ptr (some c0)
    have h3 := StepCtl.load_ptr hF c2
    have h4 := Seq.load_ptr seq
    simp only [ptr_some] at h2
    rcases y with _ | ⟨⟨⟩, _, _⟩ | ⟨⟨⟩, _, _, _, _⟩ | _ | _ | _ | _ | _ <;> simp [Solver.id] at hy <;>
    simp [Solver.set, Solver.setWith, Base.set, Base.params, loadEv, saveEv, Ctl.load, Ctl.save, maybeLoad, maybeSub,
      maybeSet, find_put, leaf, Tree.text, hF, h1, h2, h3, h4, Solver.map, Base.map, Ctl.map, ptr_some, notNull, asBool,
      bool_ok, asUnsigned, unsigned_ok hst, hload]
  | implicit b n ec alpha pr steps re ih =>
    obtain ⟨hn, hp, hst, rfl⟩ := hs
    obtain ⟨Q, hQ, hset⟩ := ih hp
    have hload := Solver.load_of_set pr Q _ (by rintro rfl; rfl) hset
    obtain ⟨N, hN, hNs, hNc⟩ := Newton.set_params hF n hn
    have h0 : asPtr Newton.new (Newton.set F) (obj "newton" N) = .ok (some (n.map r)) := by
      rw [load_node _ _ _ _ _ (by decide) (by rfl), hNs]
      rfl
    refine ⟨_, by rw [Solver.params]; simp only [hQ, hN, bind_ok]; rfl, fun y hy => ?_⟩
    have h1 := EvCtl.load_ptr ec
    rcases y with _ | ⟨⟨⟩, _, _⟩ | ⟨⟨⟩, _, _, _, _⟩ | _ | _ | _ | _ | _ <;> simp [Solver.id] at hy <;>
    simp [Solver.set, Solver.setWith, Base.set, Base.params, loadEv, saveEv, maybeLoad, maybeSub, load_null,
      maybeSet, find_put, leaf, Tree.text, hF, h0, h1, hNc, Solver.map, Base.map, asUnsigned, unsigned_ok hst, hload]

/-! ### Models, outputs, initial state -/

/-- What `parameters` of a model returns, given to `setParameters` of any model of the class that does not stick, restores
the settings. -/
theorem Model.load_params (m : Model R) (h : m.Good) :
    ∃ P, m.params F = .ok P ∧ asPtr Model.new (Model.set F) (obj m.id P) = .ok (some (m.map r)) := by
  cases m with
  | oscillator c f =>
    refine ⟨_, rfl, ?_⟩
    simp only [Model.id]
    rw [load_node _ _ _ _ _ (by decide) (by rfl)]
    simp [Model.set, maybeLoad, maybeSet, find_put, leaf, Tree.text, hF, Model.map]
  | coupled n c0 c2 f =>
    refine ⟨_, rfl, ?_⟩
    simp only [Model.id]
    rw [load_node _ _ _ _ _ (by decide) (by rfl)]
    have h : n < 2 ^ 32 := h
    simp [Model.set, maybeLoad, maybeSet, find_put, leaf, Tree.text, hF, Model.map, asUnsigned, unsigned_ok h]
  | stiff a =>
    refine ⟨_, rfl, ?_⟩
    simp only [Model.id]
    rw [load_node _ _ _ _ _ (by decide) (by rfl)]
    simp [Model.set, maybeLoad, maybeSet, find_put, leaf, Tree.text, hF, Model.map]
  | sliding k m f0 v0 F1 F2 w =>
    have hk : ∃ s, k.show = .ok s ∧ Friction.read s = .ok k := by cases k <;> exact ⟨_, rfl, rfl⟩
    obtain ⟨s, h1, h2⟩ := hk
    refine ⟨_, by rw [Model.params]; simp only [h1, bind_ok]; rfl, ?_⟩
    simp only [Model.id]
    rw [load_node _ _ _ _ _ (by decide) (by rfl)]
    simp [Model.set, maybeLoad, maybeSet, find_put, leaf, Tree.text, hF, Model.map, h2]
  | ball g c s st =>
    have h : st = false := h
    subst h
    refine ⟨_, rfl, ?_⟩
    simp only [Model.id]
    rw [load_node _ _ _ _ _ (by decide) (by rfl)]
    simp [Model.set, maybeLoad, maybeSet, find_put, leaf, Tree.text, hF, Model.map]

omit hF

theorem Output.load_ptr (o : Option Output) (h : ∀ x ∈ o, x.Good) :
    asPtr Output.new Output.set (ptr (fun o => obj o.id o.params) o) = .ok o := by
  rcases o with _ | o
  · rfl
  have h := h o rfl
  rw [ptr_some]
  rcases o with f | f | ⟨f, n⟩ | ⟨f, n⟩
  · simp only [Output.id]
    rw [load_node _ _ _ _ _ (by decide) (by rfl)]
    simp [Output.set, Output.params, maybeLoad, maybeSet, find_put, leaf, Tree.text, asText]
  · simp only [Output.id]
    rw [load_node _ _ _ _ _ (by decide) (by rfl)]
    simp [Output.set, Output.params, maybeLoad, maybeSet, find_put, leaf, Tree.text, asText]
  · simp only [Output.id]
    rw [load_node _ _ _ _ _ (by decide) (by rfl)]
    have h : n < 2 ^ 32 := h
    simp [Output.set, Output.params, maybeLoad, maybeSet, find_put, leaf, Tree.text, asText, asUnsigned, unsigned_ok h]
  · simp only [Output.id]
    rw [load_node _ _ _ _ _ (by decide) (by rfl)]
    have h : n < 2 ^ 32 := h
    simp [Output.set, Output.params, maybeLoad, maybeSet, find_put, leaf, Tree.text, asText, asUnsigned, unsigned_ok h]

theorem varName_inj {i j : Nat} (hi : i < 2 ^ 31) (hj : j < 2 ^ 31) (h : varName i = varName j) : i = j := by
  have h := congrArg String.toList h
  simp only [varName, String.toList_ofList, initVarName, List.cons.injEq, true_and] at h
  exact formatInt_inj (by omega) (by omega) h

theorem varName_ne (i : Nat) (k : String) (h : k.toList.head? ≠ some 'x') : varName i ≠ k := by
  rintro rfl
  simp [varName, initVarName] at h

theorem find_initVars_other (k : String) (xs : List R) : ∀ (i : Nat) (P : Params), (∀ j, i ≤ j → j < i + xs.length → varName j ≠ k) →
    findKV k (initVars F i xs P) = findKV k P := by
  induction xs with
  | nil => intro i P _; rfl
  | cons x xs ih =>
    intro i P h
    rw [initVars, ih (i + 1) _ (fun j h1 h2 => h j (by omega) (by simp at h2 ⊢; omega)), find_put, if_neg]
    exact h i (le_refl i) (by simp)

theorem find_initVars (xs : List R) : ∀ (i : Nat) (P : Params), i + xs.length ≤ 2 ^ 31 → ∀ j, (hj : j < xs.length) →
    findKV (varName (i + j)) (initVars F i xs P) = some (leaf (F.put xs[j])) := by
  induction xs with
  | nil => intro i P _ j hj; simp at hj
  | cons x xs ih =>
    intro i P hl j hj
    simp only [List.length_cons] at hl hj
    rw [initVars]
    cases j with
    | zero =>
      rw [find_initVars_other _ xs (i + 1) _ (fun j h1 h2 h => by
        have := varName_inj (by omega) (by omega) h
        omega), find_put, Nat.add_zero, if_pos rfl]
      rfl
    | succ j =>
      have := ih (i + 1) (P.put (varName i) (leaf (F.put x))) (by omega) j (by omega)
      rw [show i + (j + 1) = i + 1 + j by omega]
      exact this

include hF in
theorem loadVars_ok (P : Params) : ∀ (xs ys : List R) (i : Nat), ys.length = xs.length →
    (∀ j, (hj : j < xs.length) → findKV (varName (i + j)) P = some (leaf (F.put xs[j]))) →
    loadVars F P i ys = .ok (xs.map r) := by
  intro xs
  induction xs with
  | nil =>
    intro ys i hl _
    rw [List.length_nil, List.length_eq_zero_iff] at hl
    subst hl
    rfl
  | cons x xs ih =>
    intro ys i hl h
    cases ys with
    | nil => simp at hl
    | cons y ys =>
      have h0 := h 0 (by simp)
      have h1 := ih ys (i + 1) (by simpa using hl) (fun j hj => by
        have := h (j + 1) (by simpa using hj)
        rw [show i + (j + 1) = i + 1 + j by omega] at this
        exact this)
      rw [loadVars]
      simp only [maybeLoad, maybeSet, Nat.add_zero, List.getElem_cons_zero] at h0 ⊢
      rw [h0]
      simp [leaf, Tree.text, hF, h1]

include hF in
/-- Parameters of an initial state, given to one with at most as many variables, restore it. -/
theorem initSet_params (s t : InitState R) (hs : s.x.length < 2 ^ 31) (ht : t.x.length ≤ s.x.length) :
    initSet F (initParams F s) t = .ok (initMap r s) := by
  have hsize : findKV "size" (initParams F s) = some (leaf (ofInt s.x.length)) := by
    rw [initParams, find_initVars_other _ _ _ _ (fun j _ _ => varName_ne j _ (by decide))]
    simp [find_put]
  have htime : findKV "time" (initParams F s) = some (leaf (F.put s.time)) := by
    rw [initParams, find_initVars_other _ _ _ _ (fun j _ _ => varName_ne j _ (by decide))]
    simp [find_put]
  have hres : ∃ u, t.resize (s.x.length : Int) = .ok u ∧ u.x.length = s.x.length := by
    unfold InitState.resize
    by_cases he : (s.x.length : Int) = t.x.length
    · exact ⟨t, by rw [if_pos he], by omega⟩
    · refine ⟨_, by rw [if_neg he, if_neg (by omega), if_neg (by omega)], ?_⟩
      simp
      omega
  obtain ⟨u, hu, hul⟩ := hres
  have hx := loadVars_ok hF (initParams F s) s.x u.x 0 hul (fun j hj => by
    rw [initParams]
    exact find_initVars s.x 0 _ (by omega) j hj)
  unfold initSet
  simp only [maybeSet, maybeLoad, hsize, htime]
  simp [leaf, Tree.text, C74_int (s.x.length : Int) (by omega) (by exact_mod_cast hs),
    hu, hF, hx, initMap]

include hF in
theorem init_load_ptr (s : Option (InitState R)) (h : ∀ x ∈ s, x.x.length < 2 ^ 31) :
    asPtr initNew (initSet F) (ptr (fun s => obj "specified" (initParams F s)) s) = .ok (s.map (initMap r)) := by
  cases s with
  | none => rfl
  | some s =>
    rw [ptr_some, load_node _ _ _ _ _ (by decide) (by rfl), initSet_params hF s _ (h s rfl) (by simp [InitState.new])]
    rfl

end

end Verif.Config
