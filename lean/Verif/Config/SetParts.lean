import Verif.Config.SetSpec

/-
C121: setting a parameter of a component changes the setting it is and no other; lemmas for the components of solvers.
-/

set_option linter.unusedSectionVars false
set_option linter.unnecessarySeqFocus false
set_option linter.unusedSimpArgs false

namespace Verif.Config

open Verif.Infra Verif.Driver Verif.TestModels Verif.Res

/-- Two sets have the same values at the names -/
def On (keys : List String) (P B : Params) : Prop := ∀ a ∈ keys, findKV a P = findKV a B

/-- An assignment at the path replaces the value at one of the names, and the result has the property; only the names matter. -/
def Changes (keys : List String) (B : Params) (path : List String) (t : Text) (f : Params → Prop) : Prop :=
  ∃ k ∈ keys, ∃ v, ∀ Q, On keys Q B → Q.assign path (leaf t) = .ok (Q.put k v) ∧ f (Q.put k v)

theorem On.put {keys : List String} {P B : Params} {k : String} (hk : k ∉ keys) (h : On keys P B) (v : Tree) :
    On keys (P.put k v) B := by
  intro a ha
  rw [find_put, if_neg (by rintro rfl; exact hk ha), h a ha]

theorem On.put_both {keys : List String} {P B : Params} (k : String) (h : On keys P B) (v : Tree) :
    On keys (P.put k v) (B.put k v) := by
  intro a ha
  rw [find_put, find_put, h a ha]

theorem changes_leaf {keys : List String} {B : Params} {k : String} {t : Text} {f : Params → Prop} (hk : k ∈ keys)
    (hB : findKV k B ≠ none) (hf : ∀ Q, On keys Q (B.put k (leaf t)) → f Q) : Changes keys B [k] t f := by
  refine ⟨k, hk, leaf t, fun Q hQ => ⟨?_, hf _ (hQ.put_both k _)⟩⟩
  have := hQ k hk
  rw [Params.assign]
  cases h : findKV k Q with
  | none => rw [h] at this; exact absurd this.symm hB
  | some x => rfl

theorem changes_nested {keys : List String} {B : Params} {k : String} {t : Text} {f : Params → Prop} {l : List String}
    {id : Text} {N N' : Params} (hk : k ∈ keys) (hB : findKV k B = some (.node id (some N)))
    (hN : N.assign l (leaf t) = .ok N') (hf : ∀ Q, On keys Q (B.put k (.node id (some N'))) → f Q) :
    Changes keys B (k :: l) t f := by
  refine ⟨k, hk, _, fun Q hQ => ⟨?_, hf _ (hQ.put_both k _)⟩⟩
  have := hQ k hk
  cases l with
  | nil => cases hN
  | cons a l =>
    rw [Params.assign, this, hB]
    · simp only [hN, bind_ok]
    · simp

theorem assign_single {P : Params} {k : String} {x : Tree} (h : findKV k P = some x) (v : Tree) :
    P.assign [k] v = .ok (P.put k v) := by
  rw [Params.assign, h]

theorem Changes.mono {keys : List String} {B : Params} {path : List String} {t : Text} {f g : Params → Prop}
    (h : Changes keys B path t f) (hg : ∀ Q, f Q → g Q) : Changes keys B path t g := by
  obtain ⟨k, hk, v, H⟩ := h
  exact ⟨k, hk, v, fun Q hQ => ⟨(H Q hQ).1, hg _ (H Q hQ).2⟩⟩

section
variable {R : Type} [Field R] {F : Fmt R} {r : R → R} (hF : ∀ x, F.get (F.put x) = .ok (r x))

/-! ### Values -/

omit hF in
theorem Val.eq_word {v : Val R} {t : Text} (h : v.map r = .word t) : v = .word t := by
  cases v <;> simp_all [Val.map]

omit hF in
theorem Val.eq_nat {v : Val R} {n : Nat} (h : v.map r = .nat n) : v = .nat n := by
  cases v <;> simp_all [Val.map]

omit hF in
theorem Val.eq_int {v : Val R} {n : Int} (h : v.map r = .int n) : v = .int n := by
  cases v <;> simp_all [Val.map]

omit hF in
theorem Val.eq_flag {v : Val R} {b : Bool} (h : v.map r = .flag b) : v = .flag b := by
  cases v <;> simp_all [Val.map]

omit hF in
theorem Val.eq_num {v : Val R} {y : R} (h : v.map r = .num y) : ∃ x, v = .num x ∧ y = r x := by
  cases v <;> simp_all [Val.map]

/-! ### Names -/

def kBase : List String := ["h_init", "h_min"]
def kCtl : List String := ["enorm", "stepsizectl"]
def kEv : List String := ["eventctl"]
def kTrim : List String := ["jtrim"]
def kStep : List String := ["tolerance", "insurance", "inc_min_factor", "inc_max_factor", "dec_max_factor", "max_threshold"]
def kEst : List String := ["abs_tol", "rel_tol", "abs_max_threshold", "rel_max_threshold"]
def kEmb : List String := ["disable_error_check", "force_error_calc", "h_after_switch", "mode"]
def kEx : List String := ["symmetric", "disable_error_check", "max_stages"]
def kSeq : List String := ["step_sequence"]

/-! ### Components -/

include hF

theorem Base.keep {Q : Params} (b : Base R) (h : On kBase Q (b.params F)) (y : Base R) : y.set F Q = .ok (b.map r) := by
  simp only [On, kBase, List.mem_cons, List.not_mem_nil, or_false, forall_eq_or_imp, forall_eq, Base.params, find_put] at h
  obtain ⟨h1, h2⟩ := h
  simp [Base.set, maybeLoad, maybeSet, h1, h2, leaf, Tree.text, hF, Base.map]

theorem Base.change {b b' : Base R} {l : List String} {v : Val R} (h : Base.Sets (b.map r) l (v.map r) b') :
    Changes kBase (b.params F) l (v.text F) (fun Q => ∀ y : Base R, y.set F Q = .ok b') := by
  cases v <;> simp only [Val.map] at h <;> cases h
  all_goals
    refine changes_leaf (by decide) (by simp [Base.params, find_put]) fun Q hQ y => ?_
    simp only [On, kBase, List.mem_cons, List.not_mem_nil, or_false, forall_eq_or_imp, forall_eq, Base.params, find_put] at hQ
    obtain ⟨h1, h2⟩ := hQ
    simp [Base.set, maybeLoad, maybeSet, h1, h2, leaf, Tree.text, hF, Base.map, Val.text]

theorem StepCtl.change {c c' : StepCtl R} {k : String} {v : Val R} (h : StepCtl.Sets (c.map r) k (v.map r) c') :
    ∃ N, (c.params F).assign [k] (leaf (v.text F)) = .ok N ∧ ∀ y : StepCtl R, y.set F N = .ok c' := by
  have key : Changes kStep (c.params F) [k] (v.text F) (fun Q => ∀ y : StepCtl R, y.set F Q = .ok c') := by
    cases v <;> simp only [Val.map] at h <;> cases h
    all_goals
      refine changes_leaf (by decide) (by simp [StepCtl.params, find_put]) fun Q hQ y => ?_
      simp only [On, kStep, List.mem_cons, List.not_mem_nil, or_false, forall_eq_or_imp, forall_eq, StepCtl.params,
        find_put] at hQ
      obtain ⟨h1, h2, h3, h4, h5, h6⟩ := hQ
      simp [StepCtl.set, maybeLoad, maybeSet, h1, h2, h3, h4, h5, h6, leaf, Tree.text, hF, StepCtl.map, Val.text]
  obtain ⟨a, -, t, H⟩ := key
  exact ⟨_, H _ (fun _ _ => rfl)⟩

theorem Est.change {c c' : Est R} {k : String} {v : Val R} (h : Est.Sets (c.map r) k (v.map r) c') :
    ∃ N, (c.params F).assign [k] (leaf (v.text F)) = .ok N ∧ ∀ y : Est R, y.set F N = .ok c' := by
  have key : Changes kEst (c.params F) [k] (v.text F) (fun Q => ∀ y : Est R, y.set F Q = .ok c') := by
    cases v <;> simp only [Val.map] at h <;> cases h
    all_goals
      refine changes_leaf (by decide) (by simp [Est.params, find_put]) fun Q hQ y => ?_
      simp only [On, kEst, List.mem_cons, List.not_mem_nil, or_false, forall_eq_or_imp, forall_eq, Est.params, find_put] at hQ
      obtain ⟨h1, h2, h3, h4⟩ := hQ
      simp [Est.set, maybeLoad, maybeSet, h1, h2, h3, h4, leaf, Tree.text, hF, Est.map, Val.text]
  obtain ⟨a, -, t, H⟩ := key
  exact ⟨_, H _ (fun _ _ => rfl)⟩

theorem Ctl.keep {Q : Params} (c : Ctl R) (hc : c.enorm ≠ none) (h : On kCtl Q (c.save F Params.nil)) (y : Ctl R) :
    y.load F Q = .ok (c.map r) := by
  obtain ⟨e, s⟩ := c
  obtain ⟨c0, rfl⟩ := Option.ne_none_iff_exists'.1 hc
  have e1 := ErrNorm.load_ptr (some c0)
  have e2 := StepCtl.load_ptr hF s
  simp only [ptr_some] at e1
  simp only [On, kCtl, List.mem_cons, List.not_mem_nil, or_false, forall_eq_or_imp, forall_eq, Ctl.save, find_put] at h
  obtain ⟨h1, h2⟩ := h
  simp [Ctl.load, maybeLoad, maybeSet, h1, h2, ptr_some, e1, e2, notNull, Ctl.map]

theorem Ctl.change {c c' : Ctl R} {l : List String} {v : Val R} (hc : c.enorm ≠ none) (h : Ctl.Sets (c.map r) l (v.map r) c') :
    Changes kCtl (c.save F Params.nil) l (v.text F) (fun Q => ∀ y : Ctl R, y.load F Q = .ok c') := by
  obtain ⟨e, s⟩ := c
  obtain ⟨c0, rfl⟩ := Option.ne_none_iff_exists'.1 hc
  have e1 := ErrNorm.load_ptr (some c0)
  have e2 := StepCtl.load_ptr hF s
  simp only [ptr_some] at e1
  generalize hw : v.map r = w at h
  have pick : ∀ {k : String} {t : Tree} {Q : Params}, On kCtl Q ((Ctl.save F ⟨some c0, s⟩ Params.nil).put k t) →
      findKV "enorm" Q = (if k = "enorm" then some t else some (obj "inf" Params.nil)) ∧
      findKV "stepsizectl" Q = (if k = "stepsizectl" then some t else some (ptr (fun s => obj "simple" (s.params F)) s)) := by
    intro k t Q hQ
    simp only [On, kCtl, List.mem_cons, List.not_mem_nil, or_false, forall_eq_or_imp, forall_eq, Ctl.save, find_put, ptr] at hQ
    obtain ⟨h1, h2⟩ := hQ
    constructor
    · simpa using h1
    · simpa [ptr] using h2
  cases s with
  | none =>
    simp only [Ctl.map, Option.map_none] at h
    cases h <;> cases v <;> simp only [Val.map, reduceCtorEq, Val.word.injEq] at hw <;> subst hw
    all_goals
      refine changes_leaf (by decide) (by simp [Ctl.save, find_put]) fun Q hQ y => ?_
      obtain ⟨h1, h2⟩ := pick hQ
      simp [ptr] at h1 h2 e2
      simp [Ctl.load, maybeLoad, maybeSet, h1, h2, ptr_some, e1, e2, notNull]
    all_goals simp [leaf, Val.text, asPtr, ErrNorm.new, StepCtl.new, StepCtl.init, notNull]
  | some s =>
    simp only [Ctl.map, Option.map_some] at h
    cases h
    case nested k s' h =>
      subst hw
      obtain ⟨N, hN, hs⟩ := StepCtl.change hF h
      refine changes_nested (id := "simple".toList) (by decide) (by simp only [Ctl.save, find_put, if_true, ptr_some, obj]) hN
        fun Q hQ y => ?_
      obtain ⟨h1, h2⟩ := pick hQ
      have e3 : asPtr StepCtl.new (StepCtl.set F) (.node "simple".toList (some N)) = .ok (some s') := by
        rw [show Tree.node "simple".toList (some N) = obj "simple" N from rfl,
          load_node _ _ _ _ StepCtl.init (by decide) (by rfl), hs]
        rfl
      simp only [reduceIte, String.reduceEq] at h1 h2
      simp [Ctl.load, maybeLoad, maybeSet, h1, h2, ptr_some, e1, notNull]
      simp at e3
      simp [e3]
    all_goals
      cases v <;> simp only [Val.map, reduceCtorEq, Val.word.injEq] at hw
      subst hw
      refine changes_leaf (by decide) (by simp [Ctl.save, find_put]) fun Q hQ y => ?_
      obtain ⟨h1, h2⟩ := pick hQ
      simp [ptr] at h1 h2 e2
      simp [Ctl.load, maybeLoad, maybeSet, h1, h2, ptr_some, e1, e2, notNull]
    all_goals simp [leaf, Val.text, asPtr, ErrNorm.new, StepCtl.new, StepCtl.init, notNull]

omit hF in
theorem Ev.keep {Q : Params} (ec : Option EvCtl) (h : On kEv Q (saveEv ec Params.nil)) (y : Option EvCtl) :
    loadEv Q y = .ok ec := by
  have h1 := h "eventctl" (by decide)
  simp only [saveEv, find_put, if_true] at h1
  simp [loadEv, maybeLoad, maybeSet, h1, EvCtl.load_ptr]

omit hF in
theorem Ev.change {ec ec' : Option EvCtl} {l : List String} {v : Val R} (h : EvSets ec l (v.map r) ec') :
    Changes kEv (saveEv ec Params.nil) l (v.text F) (fun Q => ∀ y, loadEv Q y = .ok ec') := by
  cases v <;> simp only [Val.map] at h <;> cases h
  all_goals
    refine changes_leaf (by decide) (by simp [saveEv, find_put]) fun Q hQ y => ?_
    have h1 := hQ "eventctl" (by decide)
    simp only [saveEv, find_put, if_true] at h1
    simp [loadEv, maybeLoad, maybeSet, h1]
    simp [leaf, Val.text, asPtr, EvCtl.new]

theorem Trim.keep {Q : Params} (t : Option (Trim R)) (ht : ∀ x ∈ t, x.Good) (h : On kTrim Q (saveTrim F t Params.nil))
    (y : Option (Trim R)) : loadTrim F Q y = .ok (t.map (Trim.map r)) := by
  have h1 := h "jtrim" (by decide)
  simp only [saveTrim, find_put, if_true] at h1
  simp [loadTrim, maybeLoad, maybeSet, h1, Trim.load_ptr hF t ht]

/-- Trimmers, also those of Jacobian providers -/
theorem Trim.change_tree {t t' : Option (Trim R)} {l : List String} {v : Val R} (hv : v.Good)
    (h : TrimSets (t.map (Trim.map r)) l (v.map r) t') {keys : List String} (hk : "jtrim" ∈ keys) {B : Params}
    (hB : findKV "jtrim" B = some (ptr (Trim.tree F) t)) {f : Params → Prop}
    (hf : ∀ Q T, On keys Q (B.put "jtrim" T) → asPtr Trim.new (Trim.set F) T = .ok t' → f Q) :
    Changes keys B l (v.text F) f := by
  generalize hw : v.map r = w at h
  have hn : findKV "jtrim" B ≠ none := by rw [hB]; simp
  generalize ht : t.map (Trim.map r) = t0 at h
  cases h
  case newWidth =>
    obtain rfl := Val.eq_word hw
    exact changes_leaf hk hn fun Q hQ => hf Q _ hQ rfl
  case newThreshold =>
    obtain rfl := Val.eq_word hw
    exact changes_leaf hk hn fun Q hQ => hf Q _ hQ rfl
  case drop =>
    obtain rfl := Val.eq_word hw
    exact changes_leaf hk hn fun Q hQ => hf Q _ hQ rfl
  case width _ n =>
    obtain ⟨w0, rfl⟩ : ∃ w0, t = some (.width w0) := by
      rcases t with _ | ⟨w0 | x0⟩ <;> simp [Trim.map] at ht
      exact ⟨w0, rfl⟩
    obtain rfl := Val.eq_nat hw
    have hv : n < 2 ^ 32 := hv
    have hB : findKV "jtrim" B = some (.node "width".toList (some (Params.nil.put "width" (leaf (ofUnsigned w0))))) := hB
    refine changes_nested hk hB (assign_single (x := leaf (ofUnsigned w0)) (by simp [find_put]) _) fun Q hQ => hf Q _ hQ ?_
    have := load_node Trim.new (Trim.set F) "width"
      ((Params.nil.put "width" (leaf (ofUnsigned w0))).put "width" (leaf (Val.text F (.nat n)))) (.width 0) (by decide) (by rfl)
    rw [obj] at this
    rw [this]
    simp [Trim.set, maybeLoad, maybeSet, find_put, leaf, Tree.text, asUnsigned, Val.text, unsigned_ok hv]
  case threshold =>
    obtain ⟨x0, rfl⟩ : ∃ x0, t = some (.threshold x0) := by
      rcases t with _ | ⟨w0 | x0⟩ <;> simp [Trim.map] at ht
      exact ⟨x0, rfl⟩
    obtain ⟨y, rfl, rfl⟩ := Val.eq_num hw
    have hB : findKV "jtrim" B = some (.node "threshold".toList (some (Params.nil.put "threshold" (leaf (F.put x0))))) := hB
    refine changes_nested hk hB (assign_single (x := leaf (F.put x0)) (by simp [find_put]) _) fun Q hQ => hf Q _ hQ ?_
    have := load_node Trim.new (Trim.set F) "threshold"
      ((Params.nil.put "threshold" (leaf (F.put x0))).put "threshold" (leaf (Val.text F (.num y)))) (.threshold 0) (by decide)
      (by rfl)
    rw [obj] at this
    rw [this]
    simp [Trim.set, maybeLoad, maybeSet, find_put, leaf, Tree.text, Val.text, hF]

theorem Trim.change {t t' : Option (Trim R)} {l : List String} {v : Val R} (hv : v.Good)
    (h : TrimSets (t.map (Trim.map r)) l (v.map r) t') :
    Changes kTrim (saveTrim F t Params.nil) l (v.text F) (fun Q => ∀ y, loadTrim F Q y = .ok t') :=
  Trim.change_tree hF hv h (by decide) (by simp [saveTrim, find_put]) fun Q T hQ hT y => by
    have h1 := hQ "jtrim" (by decide)
    simp only [find_put, if_true] at h1
    simp [loadTrim, maybeLoad, maybeSet, h1, hT]

/-- `parameters` of embedded solvers, own part -/
def embOwn (F : Fmt R) (s : EmbSet R) : Params :=
  (((Params.nil.put "disable_error_check" (leaf (ofBool s.disable))).put "force_error_calc" (leaf (ofBool s.force))).put
      "h_after_switch" (leaf (F.put s.hAfter))).put "mode" (leaf (if s.high then "high".toList else "low".toList))

/-- Own settings read -/
def EmbReads (F : Fmt R) (Q : Params) (s : EmbSet R) : Prop := ∀ y : EmbSet R,
  maybeLoad Q "disable_error_check" asBool y.disable = .ok s.disable ∧
  maybeLoad Q "force_error_calc" asBool y.force = .ok s.force ∧
  maybeLoad Q "h_after_switch" (F.get ·.text) y.hAfter = .ok s.hAfter ∧
  maybeLoad Q "mode" asMode y.high = .ok s.high

omit hF in
theorem mode_ok (b : Bool) : asMode (leaf (if b then "high".toList else "low".toList)) = .ok b := by cases b <;> rfl

theorem Emb.keep {Q : Params} (s : EmbSet R) (h : On kEmb Q (embOwn F s)) : EmbReads F Q { s with hAfter := r s.hAfter } := by
  simp only [On, kEmb, List.mem_cons, List.not_mem_nil, or_false, forall_eq_or_imp, forall_eq, embOwn, find_put] at h
  obtain ⟨h1, h2, h3, h4⟩ := h
  simp only [reduceIte, String.reduceEq] at h1 h2 h3 h4
  intro y
  simp only [maybeLoad, maybeSet, h1, h2, h3, h4]
  exact ⟨bool_ok _, bool_ok _, hF _, mode_ok _⟩

theorem Emb.change {s s' : EmbSet R} {l : List String} {v : Val R}
    (h : EmbSet.Sets { s with hAfter := r s.hAfter } l (v.map r) s') :
    Changes kEmb (embOwn F s) l (v.text F) (fun Q => EmbReads F Q s') := by
  cases v <;> simp only [Val.map] at h <;> cases h
  all_goals
    refine changes_leaf (by decide) (by simp [embOwn, find_put]) fun Q hQ y => ?_
    simp only [On, kEmb, List.mem_cons, List.not_mem_nil, or_false, forall_eq_or_imp, forall_eq, embOwn, find_put] at hQ
    obtain ⟨h1, h2, h3, h4⟩ := hQ
    simp only [reduceIte, String.reduceEq] at h1 h2 h3 h4
    simp only [maybeLoad, maybeSet, h1, h2, h3, h4, Val.text]
  · exact ⟨bool_ok _, bool_ok _, hF _, mode_ok _⟩
  · exact ⟨bool_ok _, bool_ok _, hF _, mode_ok _⟩
  · exact ⟨bool_ok _, bool_ok _, hF _, mode_ok _⟩
  · exact ⟨bool_ok _, bool_ok _, hF _, mode_ok true⟩
  · exact ⟨bool_ok _, bool_ok _, hF _, mode_ok false⟩

/-- `parameters` of extrapolators, own part -/
def exOwn (s : ExSet) : Params :=
  ((Params.nil.put "symmetric" (leaf (ofBool s.symmetric))).put "disable_error_check" (leaf (ofBool s.disable))).put
    "max_stages" (leaf (ofUnsigned s.stages))

/-- Own settings read -/
def ExReads (Q : Params) (s : ExSet) : Prop := ∀ y : ExSet,
  maybeLoad Q "symmetric" asBool y.symmetric = .ok s.symmetric ∧
  maybeLoad Q "disable_error_check" asBool y.disable = .ok s.disable ∧
  maybeLoad Q "max_stages" asUnsigned y.stages = .ok s.stages

omit hF in
theorem Ex.keep {Q : Params} (s : ExSet) (hs : s.stages < 2 ^ 32) (h : On kEx Q (exOwn s)) : ExReads Q s := by
  simp only [On, kEx, List.mem_cons, List.not_mem_nil, or_false, forall_eq_or_imp, forall_eq, exOwn, find_put] at h
  obtain ⟨h1, h2, h3⟩ := h
  simp only [reduceIte, String.reduceEq] at h1 h2 h3
  intro y
  simp only [maybeLoad, maybeSet, h1, h2, h3]
  exact ⟨bool_ok _, bool_ok _, unsigned_ok hs⟩

omit hF in
theorem Ex.change {s s' : ExSet} (hs : s.stages < 2 ^ 32) {l : List String} {v : Val R} (hv : v.Good)
    (h : ExSet.Sets s l (v.map r) s') : Changes kEx (exOwn s) l (v.text F) (fun Q => ExReads Q s') := by
  cases v <;> simp only [Val.map] at h <;> cases h
  all_goals
    refine changes_leaf (by decide) (by simp [exOwn, find_put]) fun Q hQ y => ?_
    simp only [On, kEx, List.mem_cons, List.not_mem_nil, or_false, forall_eq_or_imp, forall_eq, exOwn, find_put] at hQ
    obtain ⟨h1, h2, h3⟩ := hQ
    simp only [reduceIte, String.reduceEq] at h1 h2 h3
    simp only [maybeLoad, maybeSet, h1, h2, h3, Val.text]
  · exact ⟨bool_ok _, bool_ok _, unsigned_ok hv⟩
  · exact ⟨bool_ok _, bool_ok _, unsigned_ok hs⟩
  · exact ⟨bool_ok _, bool_ok _, unsigned_ok hs⟩

/-- `parameters` of a step sequence -/
def seqOwn (q : Option Seq) : Params := Params.nil.put "step_sequence" (ptr (fun q => .node q.id.toList none) q)

omit hF in
theorem Seq.keep {Q : Params} (q : Option Seq) (h : On kSeq Q (seqOwn q)) (y : Option Seq) :
    maybeLoad Q "step_sequence" (asPtr Seq.new (fun _ q => .ok q)) y = .ok q := by
  have h1 := h "step_sequence" (by decide)
  simp only [seqOwn, find_put, if_true] at h1
  simp [maybeLoad, maybeSet, h1, Seq.load_ptr]

omit hF in
theorem Seq.change {q q' : Option Seq} {l : List String} {v : Val R} (h : SeqSets q l (v.map r) q') :
    Changes kSeq (seqOwn q) l (v.text F)
      (fun Q => ∀ y, maybeLoad Q "step_sequence" (asPtr Seq.new (fun _ q => .ok q)) y = .ok q') := by
  cases v <;> simp only [Val.map] at h <;> cases h
  all_goals
    refine changes_leaf (by decide) (by simp [seqOwn, find_put]) fun Q hQ y => ?_
    have h1 := hQ "step_sequence" (by decide)
    simp only [find_put, if_true] at h1
    simp [maybeLoad, maybeSet, h1]
    simp [leaf, Val.text, asPtr, Seq.new]

omit hF in
/-- A value that is not an object -/
theorem changes_value {α : Type} {k : String} {B : Params} {t : Text} (hB : findKV k B ≠ none) {conv : Tree → Res α} {x : α}
    (h : conv (leaf t) = .ok x) : Changes [k] B [k] t (fun Q => ∀ y, maybeLoad Q k conv y = .ok x) :=
  changes_leaf (by simp) hB fun Q hQ y => by
    have h1 := hQ k (by simp)
    simp only [find_put, if_true] at h1
    simp [maybeLoad, maybeSet, h1, h]

omit hF in
theorem keep_value {α : Type} {k : String} {Q : Params} {t : Tree} (hB : findKV k Q = some t) {conv : Tree → Res α} {x : α}
    (h : conv t = .ok x) (y : α) : maybeLoad Q k conv y = .ok x := by
  simp [maybeLoad, maybeSet, hB, h]

end

end Verif.Config
