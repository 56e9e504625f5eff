import Verif.Config.SetParts

/-
C121: setting a parameter of a solver changes the setting it is and no other.
-/

set_option linter.unusedSectionVars false
set_option linter.unnecessarySeqFocus false
set_option linter.unusedSimpArgs false

namespace Verif.Config

open Verif.Infra Verif.Driver Verif.TestModels Verif.Res

theorem assign_nested {P N N' : Params} {k : String} {l : List String} {id : Text} {v : Tree}
    (h : findKV k P = some (.node id (some N))) (hN : N.assign l v = .ok N') :
    P.assign (k :: l) v = .ok (P.put k (.node id (some N'))) := by
  cases l with
  | nil => cases hN
  | cons a l =>
    rw [Params.assign, h]
    · simp only [hN, bind_ok]
    · simp

section
variable {R : Type} [Field R] {F : Fmt R} {r : R → R} (hF : ∀ x, F.get (F.put x) = .ok (r x))

/-! ### Newton solver -/

theorem newton_read {Q : Params} {T1 T2 T3 T4 T5 T6 : Tree} {m : Nat} {k : DirKind} {jk : JpKind} {t : Option (Trim R)}
    {s : Search} {e : Option (Est R)}
    (f1 : findKV "itperf" Q = some (obj "default" Params.nil)) (f2 : findKV "regularizer" Q = some null)
    (f3 : findKV "max_iterations" Q = some T1) (f4 : findKV "ddir" Q = some T2) (f5 : findKV "jacobian" Q = some T3)
    (f6 : findKV "jtrim" Q = some T4) (f7 : findKV "linsearch" Q = some T5) (f8 : findKV "err" Q = some T6)
    (h1 : asUnsigned T1 = .ok m) (h2 : asPtr DirKind.new DirKind.set T2 = .ok (some k))
    (h3 : asPtr JpKind.new (fun _ e => .ok e) T3 = .ok (some jk)) (h4 : asPtr Trim.new (Trim.set F) T4 = .ok t)
    (h5 : asPtr Search.new (fun _ e => .ok e) T5 = .ok (some s)) (h6 : asPtr Est.new (Est.set F) T6 = .ok e) (y : Newton R) :
    y.set F Q = .ok ⟨some ⟨some ⟨k, some ⟨jk, t⟩⟩, some s, e⟩, m⟩ := by
  have h0 := Perf.load_ptr (some (⟨none, none, none⟩ : Perf R))
  simp only [ptr_some] at h0
  simp [Newton.set, maybeLoad, maybeSet, f1, f2, f3, f4, f5, f6, f7, f8, h0, h1, h2, h3, h4, h5, h6, load_null, Perf.set,
    Dir.set, Jp.setTrim, notNull]

theorem DirKind.named {i : String} {k : DirKind} (h : DirKind.Named i k) :
    asPtr DirKind.new DirKind.set (leaf i.toList) = .ok (some k) := by
  cases h <;> rfl

theorem JpKind.named {i : String} {k : JpKind} (h : JpKind.Named i k) :
    asPtr JpKind.new (fun _ e => .ok e) (leaf i.toList) = .ok (some k) := by
  cases h <;> rfl

include hF

theorem Newton.change {n n' : Newton R} (hn : n.Good) {v : Val R} (hv : v.Good) {l : List String}
    (h : Newton.Sets (n.map r) l (v.map r) n') :
    ∃ N N', n.params F = .ok N ∧ N.assign l (leaf (v.text F)) = .ok N' ∧ (∀ y : Newton R, y.set F N' = .ok n') ∧
      n'.connect = .ok () := by
  generalize hw : v.map r = w at h
  obtain ⟨it, lim⟩ := n
  obtain ⟨hl, hg⟩ := hn
  simp only at hl hg
  cases it with
  | none =>
    simp only [Newton.map, Option.map_none] at h
    cases h
    case limit m =>
      obtain rfl := Val.eq_nat hw
      have hv : m < 2 ^ 32 := hv
      refine ⟨_, _, rfl, assign_single (x := leaf (ofUnsigned lim)) (by simp [find_put]) _, fun y => ?_, rfl⟩
      simp [Newton.set, maybeLoad, maybeSet, find_put, ptr, load_null, leaf, Tree.text, asUnsigned, unsigned_ok hv, Val.text]
    case drop =>
      obtain rfl := Val.eq_word hw
      refine ⟨_, _, rfl, assign_single (x := null) (by simp [find_put, ptr]) _, fun y => ?_, rfl⟩
      simp [Newton.set, maybeLoad, maybeSet, find_put, load_null, leaf, Tree.text, asUnsigned, unsigned_ok hl, Val.text]
      rfl
  | some p =>
    obtain ⟨dd, se, es⟩ := p
    obtain ⟨hs, d, j, rfl, hj, hk, ht⟩ := hg _ rfl
    obtain ⟨k, jj⟩ := d
    simp only at hj hk hs
    subst hj
    obtain ⟨jk, t⟩ := j
    simp only at ht
    obtain ⟨s, rfl⟩ := Option.ne_none_iff_exists'.1 hs
    have h2 := DirKind.load_ptr (some (⟨k, some ⟨jk, t⟩⟩ : Dir R)) (by simpa using hk)
    have h3 := JpKind.load_ptr (some (⟨jk, t⟩ : Jp R))
    have h4 := Search.load_ptr (some s)
    have h5 := Est.load_ptr hF es
    have h6 := Trim.load_ptr hF t ht
    have h7 : asUnsigned (leaf (ofUnsigned lim)) = .ok lim := unsigned_ok hl
    simp only [ptr_some, Option.map_some] at h2 h3 h4
    obtain ⟨N, hN⟩ : ∃ N, (⟨some ⟨some ⟨k, some ⟨jk, t⟩⟩, some s, es⟩, lim⟩ : Newton R).params F = .ok N := ⟨_, rfl⟩
    refine ⟨N, ?_⟩
    have f : findKV "itperf" N = some (obj "default" Params.nil) ∧ findKV "regularizer" N = some null ∧
        findKV "max_iterations" N = some (leaf (ofUnsigned lim)) ∧ findKV "ddir" N = some k.tree ∧
        findKV "jacobian" N = some (.node jk.id.toList none) ∧ findKV "jtrim" N = some (ptr (Trim.tree F) t) ∧
        findKV "linsearch" N = some (obj "simple" Params.nil) ∧
        findKV "err" N = some (ptr (fun s => obj "simple" (s.params F)) es) := by
      simp only [Newton.params, bind_ok, Except.ok.injEq] at hN
      subst hN
      simp [find_put, ptr_some]
    obtain ⟨f1, f2, f3, f4, f5, f6, f7, f8⟩ := f
    have g : ∀ {a b : String} {T : Tree} {x : Option Tree}, findKV a N = x → b ≠ a → findKV a (N.put b T) = x :=
      fun h hab => by rw [find_put, if_neg hab, h]
    have g0 : ∀ {a : String} {T : Tree}, findKV a (N.put a T) = some T := by
      intro a T
      rw [find_put, if_pos rfl]
    simp only [Newton.map, Option.map_some] at h
    generalize he : es.map (Est.map r) = eo at h h5
    cases h
    case limit m =>
      obtain rfl := Val.eq_nat hw
      exact ⟨_, hN, assign_single f3 _, newton_read (g f1 (by decide)) (g f2 (by decide)) g0 (g f4 (by decide)) (g f5 (by decide))
        (g f6 (by decide)) (g f7 (by decide)) (g f8 (by decide)) (unsigned_ok hv) h2 h3 h6 h4 h5, rfl⟩
    case drop =>
      obtain rfl := Val.eq_word hw
      refine ⟨_, hN, assign_single f1 _, fun y => ?_, rfl⟩
      simp [Newton.set, maybeLoad, maybeSet, find_put, f2, f3, load_null, h7]
      rfl
    case ddir k' i hi =>
      obtain rfl := Val.eq_word hw
      exact ⟨_, hN, assign_single f4 _, newton_read (g f1 (by decide)) (g f2 (by decide)) (g f3 (by decide)) g0 (g f5 (by decide))
        (g f6 (by decide)) (g f7 (by decide)) (g f8 (by decide)) h7 (DirKind.named hi) h3 h6 h4 h5, rfl⟩
    case lazy q q' =>
      obtain rfl := Val.eq_nat hw
      have f4 : findKV "ddir" N = some (.node "lazy-fake-broyden".toList
        (some (Params.nil.put "lazy_iterations" (leaf (ofUnsigned q))))) := f4
      refine ⟨_, hN, assign_nested f4 (assign_single (x := leaf (ofUnsigned q)) (by simp [find_put]) _),
        newton_read (g f1 (by decide)) (g f2 (by decide)) (g f3 (by decide)) g0 (g f5 (by decide))
        (g f6 (by decide)) (g f7 (by decide)) (g f8 (by decide)) h7 ?_ h3 h6 h4 h5, rfl⟩
      have := load_node DirKind.new DirKind.set "lazy-fake-broyden"
        ((Params.nil.put "lazy_iterations" (leaf (ofUnsigned q))).put "lazy_iterations" (leaf (Val.text F (.nat q'))))
        (.lazy 10) (by decide) (by rfl)
      rw [obj] at this
      rw [this]
      have hv : q' < 2 ^ 32 := hv
      simp [DirKind.set, maybeLoad, maybeSet, find_put, leaf, Tree.text, asUnsigned, Val.text, unsigned_ok hv]
    case jacobian k' i hi =>
      obtain rfl := Val.eq_word hw
      exact ⟨_, hN, assign_single f5 _, newton_read (g f1 (by decide)) (g f2 (by decide)) (g f3 (by decide)) (g f4 (by decide)) g0
        (g f6 (by decide)) (g f7 (by decide)) (g f8 (by decide)) h7 h2 (JpKind.named hi) h6 h4 h5, rfl⟩
    case jtrim t' hi =>
      subst hw
      have := Trim.change_tree hF hv hi (keys := ["jtrim"]) (by simp) f6
        (f := fun Q => ∃ T, findKV "jtrim" Q = some T ∧ asPtr Trim.new (Trim.set F) T = .ok t') (fun Q T hQ hT => by
          refine ⟨T, ?_, hT⟩
          rw [hQ _ (by simp), g0])
      obtain ⟨a, ha, T, H⟩ := this
      simp only [List.mem_cons, List.not_mem_nil, or_false] at ha
      subst ha
      obtain ⟨H1, T', H2, H3⟩ := H N (fun _ _ => rfl)
      exact ⟨_, hN, H1, newton_read (g f1 (by decide)) (g f2 (by decide)) (g f3 (by decide)) (g f4 (by decide)) (g f5 (by decide)) H2
        (g f7 (by decide)) (g f8 (by decide)) h7 h2 h3 H3 h4 h5, rfl⟩
    case search =>
      obtain rfl := Val.eq_word hw
      exact ⟨_, hN, assign_single f7 _, newton_read (g f1 (by decide)) (g f2 (by decide)) (g f3 (by decide)) (g f4 (by decide))
        (g f5 (by decide)) (g f6 (by decide)) g0 (g f8 (by decide)) h7 h2 h3 h6 (by rfl) h5, rfl⟩
    case newErr =>
      obtain rfl := Val.eq_word hw
      exact ⟨_, hN, assign_single f8 _, newton_read (g f1 (by decide)) (g f2 (by decide)) (g f3 (by decide)) (g f4 (by decide))
        (g f5 (by decide)) (g f6 (by decide)) (g f7 (by decide)) g0 h7 h2 h3 h6 h4 (by rfl), rfl⟩
    case dropErr =>
      obtain rfl := Val.eq_word hw
      exact ⟨_, hN, assign_single f8 _, newton_read (g f1 (by decide)) (g f2 (by decide)) (g f3 (by decide)) (g f4 (by decide))
        (g f5 (by decide)) (g f6 (by decide)) (g f7 (by decide)) g0 h7 h2 h3 h6 h4 (by rfl), rfl⟩
    case err e e' a hi =>
      subst hw
      obtain ⟨es, rfl, rfl⟩ := Option.map_eq_some_iff.1 he
      obtain ⟨E, hE, hEs⟩ := Est.change hF hi
      refine ⟨_, hN, assign_nested f8 hE, newton_read (g f1 (by decide)) (g f2 (by decide)) (g f3 (by decide)) (g f4 (by decide))
        (g f5 (by decide)) (g f6 (by decide)) (g f7 (by decide)) g0 h7 h2 h3 h6 h4 ?_, rfl⟩
      have := load_node Est.new (Est.set F) "simple" E _ (by decide) (by rfl)
      rw [obj] at this
      rw [this, hEs]
      rfl

/-! ### Solvers -/

omit hF

theorem fixed_read {Q : Params} {k : FixedKind} {b b' : Base R} {ec ec' : Option EvCtl} (h1 : ∀ y : Base R, y.set F Q = .ok b')
    (h2 : ∀ y, loadEv Q y = .ok ec') (y : Solver R) (hy : y.id = (Solver.fixed k b ec).id) :
    y.set F Q = .ok (.fixed k b' ec') := by
  rcases k <;> rcases y with _ | ⟨⟨⟩, _, _⟩ | ⟨⟨⟩, _, _, _, _⟩ | _ | _ | _ | _ | _ <;> simp [Solver.id] at hy <;>
  simp [Solver.set, Solver.setWith, h1, h2]

theorem emb_read {Q : Params} {k : EmbKind} {b b' : Base R} {c c' : Ctl R} {ec ec' : Option EvCtl} {s s' : EmbSet R}
    (h1 : ∀ y : Base R, y.set F Q = .ok b') (h2 : ∀ y : Ctl R, y.load F Q = .ok c') (h3 : ∀ y, loadEv Q y = .ok ec')
    (h4 : EmbReads F Q s') (y : Solver R) (hy : y.id = (Solver.embedded k b c ec s).id) :
    y.set F Q = .ok (.embedded k b' c' ec' s') := by
  rcases k <;> rcases y with _ | ⟨⟨⟩, _, _⟩ | ⟨⟨⟩, _, _, _, yy⟩ | _ | _ | _ | _ | _ <;> simp [Solver.id] at hy <;>
  obtain ⟨g1, g2, g3, g4⟩ := h4 yy <;>
  simp [Solver.set, Solver.setWith, h1, h2, h3, g1, g2, g3, g4]

theorem w1_read {Q : Params} {b b' : Base R} {t t' : Option (Trim R)} {ec ec' : Option EvCtl} {d d' : R}
    (h1 : ∀ y : Base R, y.set F Q = .ok b') (h2 : ∀ y, loadTrim F Q y = .ok t') (h3 : ∀ y, loadEv Q y = .ok ec')
    (h4 : ∀ y, maybeLoad Q "d" (F.get ·.text) y = .ok d') (y : Solver R) (hy : y.id = (Solver.w1 b t ec d).id) :
    y.set F Q = .ok (.w1 b' t' ec' d') := by
  rcases y with _ | ⟨⟨⟩, _, _⟩ | ⟨⟨⟩, _, _, _, _⟩ | _ | _ | _ | _ | _ <;> simp [Solver.id] at hy <;>
  simp [Solver.set, Solver.setWith, h1, h2, h3, h4]

theorem sw_read {Q : Params} {b b' : Base R} {t t' : Option (Trim R)} {c c' : Ctl R} {ec ec' : Option EvCtl} {d d' : R}
    {e e' : Bool} (h1 : ∀ y : Base R, y.set F Q = .ok b') (h2 : ∀ y, loadTrim F Q y = .ok t')
    (h3 : ∀ y : Ctl R, y.load F Q = .ok c') (h4 : ∀ y, loadEv Q y = .ok ec')
    (h5 : ∀ y, maybeLoad Q "d" (F.get ·.text) y = .ok d') (h6 : ∀ y, maybeLoad Q "disable_error_check" asBool y = .ok e')
    (y : Solver R) (hy : y.id = (Solver.sw24 b t c ec d e).id) : y.set F Q = .ok (.sw24 b' t' c' ec' d' e') := by
  rcases y with _ | ⟨⟨⟩, _, _⟩ | ⟨⟨⟩, _, _, _, _⟩ | _ | _ | _ | _ | _ <;> simp [Solver.id] at hy <;>
  simp [Solver.set, Solver.setWith, h1, h2, h3, h4, h5, h6]

theorem gragg_read {Q : Params} {b b' : Base R} {ec ec' : Option EvCtl} {e e' : Bool}
    (h1 : ∀ y : Base R, y.set F Q = .ok b') (h2 : ∀ y, loadEv Q y = .ok ec')
    (h3 : ∀ y, maybeLoad Q "smooth" asBool y = .ok e')
    (y : Solver R) (hy : y.id = (Solver.gragg b ec e).id) : y.set F Q = .ok (.gragg b' ec' e') := by
  rcases y with _ | ⟨⟨⟩, _, _⟩ | ⟨⟨⟩, _, _, _, _⟩ | _ | _ | _ | _ | _ <;> simp [Solver.id] at hy <;>
  simp [Solver.set, Solver.setWith, h1, h2, h3]

theorem ex_read {Q : Params} {b b' : Base R} {c c' : Ctl R} {ec ec' : Option EvCtl} {s s' : ExSet} {q q' : Option Seq}
    {ref ref' : Solver R} {T : Tree}
    (h1 : ∀ y : Base R, y.set F Q = .ok b') (h2 : ∀ y : Ctl R, y.load F Q = .ok c') (h3 : ∀ y, loadEv Q y = .ok ec')
    (h4 : ExReads Q s') (h5 : ∀ y, maybeLoad Q "step_sequence" (asPtr Seq.new (fun _ q => .ok q)) y = .ok q')
    (h6 : findKV "reference_solver" Q = some T) (h7 : Solver.load F T = .ok ref')
    (y : Solver R) (hy : y.id = (Solver.extrapolator b c ec s q ref).id) :
    y.set F Q = .ok (.extrapolator b' c' ec' s' q' ref') := by
  rcases y with _ | ⟨⟨⟩, _, _⟩ | ⟨⟨⟩, _, _, _, _⟩ | _ | _ | _ | ⟨_, _, _, yy, _, _⟩ | _ <;> simp [Solver.id] at hy <;>
  obtain ⟨g1, g2, g3⟩ := h4 yy <;>
  simp [Solver.set, Solver.setWith, h1, h2, h3, g1, g2, g3, h5, h6, h7, maybeSub]

theorem im_read {Q : Params} {b b' : Base R} {n n' : Newton R} {ec ec' : Option EvCtl} {a a' : R} {pr pr' : Solver R}
    {m m' : Nat} {re : Bool} {T U : Tree}
    (h1 : ∀ y : Base R, y.set F Q = .ok b') (h2 : findKV "algsolver" Q = some U)
    (h3 : asPtr Newton.new (Newton.set F) U = .ok (some n')) (h4 : n'.connect = .ok ()) (h5 : ∀ y, loadEv Q y = .ok ec')
    (h6 : ∀ y, maybeLoad Q "alpha" (F.get ·.text) y = .ok a')
    (h7 : findKV "predictor" Q = some T) (h8 : Solver.load F T = .ok pr')
    (h9 : ∀ y, maybeLoad Q "predictor_steps" asUnsigned y = .ok m') (h10 : findKV "reorder" Q = some null)
    (y : Solver R) (hy : y.id = (Solver.implicit b n ec a pr m re).id) :
    y.set F Q = .ok (.implicit b' n' ec' a' pr' m' false) := by
  rcases y with _ | ⟨⟨⟩, _, _⟩ | ⟨⟨⟩, _, _, _, _⟩ | _ | _ | _ | _ | _ <;> simp [Solver.id] at hy <;>
  simp [Solver.set, Solver.setWith, h1, h2, h3, h4, h5, h6, h7, h8, h9, h10, maybeSub, maybeSet, load_null]

theorem find_self (P : Params) (a : String) (t : Tree) : findKV a (P.put a t) = some t := by
  rw [find_put, if_pos rfl]

/-- A solver by name -/
theorem Solver.named {i : String} {s : Solver R} (h : Solver.Named i s) : Solver.load F (leaf i.toList) = .ok s := by
  rw [leaf, Solver.load]
  cases h <;> rfl

include hF

/-- Setting a parameter of a solver -/
theorem Solver.change (s : Solver R) (hs : s.Good) {v : Val R} (hv : v.Good) : ∀ {l : List String} {s' : Solver R},
    Solver.Sets (s.map r) l (v.map r) s' → ∃ P P', s.params F = .ok P ∧ P.assign l (leaf (v.text F)) = .ok P' ∧
      ∀ y : Solver R, y.id = s.id → y.set F P' = .ok s' := by
  induction s with
  | null => intro l s' h; cases h
  | fixed k b ec =>
    intro l s' h
    have oB : On kBase (saveEv ec (b.params F)) (b.params F) := by simp [On, kBase, find_put, saveEv, Base.params]
    have oE : On kEv (saveEv ec (b.params F)) (saveEv ec Params.nil) := by simp [On, kEv, find_put, saveEv]
    simp only [Solver.map] at h
    cases h
    case fixedBase h =>
      obtain ⟨a, ha, t, H⟩ := Base.change hF h
      obtain ⟨H1, H2⟩ := H _ oB
      exact ⟨_, _, rfl, H1, fixed_read H2 (Ev.keep ec (oE.put ((by decide : ∀ a ∈ kBase, a ∉ kEv) a ha) t))⟩
    case fixedEv h =>
      obtain ⟨a, ha, t, H⟩ := Ev.change (F := F) h
      obtain ⟨H1, H2⟩ := H _ oE
      exact ⟨_, _, rfl, H1, fixed_read (Base.keep hF b (oB.put ((by decide : ∀ a ∈ kEv, a ∉ kBase) a ha) t)) H2⟩
  | embedded k b c ec s =>
    intro l s' h
    have hc : c.enorm ≠ none := hs
    obtain ⟨P, hP⟩ : ∃ P, (Solver.embedded k b c ec s).params F = .ok P := ⟨_, rfl⟩
    have hP' := hP
    simp only [Solver.params, Except.ok.injEq] at hP'
    have oB : On kBase P (b.params F) := by subst hP'; simp [On, kBase, find_put, saveEv, Ctl.save, Base.params]
    have oC : On kCtl P (c.save F Params.nil) := by subst hP'; simp [On, kCtl, find_put, saveEv, Ctl.save]
    have oE : On kEv P (saveEv ec Params.nil) := by subst hP'; simp [On, kEv, find_put, saveEv]
    have oO : On kEmb P (embOwn F s) := by subst hP'; simp [On, kEmb, find_put, embOwn]
    clear hP'
    simp only [Solver.map] at h
    cases h
    case embBase h =>
      obtain ⟨a, ha, t, H⟩ := Base.change hF h
      obtain ⟨H1, H2⟩ := H _ oB
      exact ⟨_, _, hP, H1, emb_read H2 (Ctl.keep hF c hc (oC.put ((by decide : ∀ a ∈ kBase, a ∉ kCtl) a ha) t))
        (Ev.keep ec (oE.put ((by decide : ∀ a ∈ kBase, a ∉ kEv) a ha) t))
        (Emb.keep hF s (oO.put ((by decide : ∀ a ∈ kBase, a ∉ kEmb) a ha) t))⟩
    case embCtl h =>
      obtain ⟨a, ha, t, H⟩ := Ctl.change hF hc h
      obtain ⟨H1, H2⟩ := H _ oC
      exact ⟨_, _, hP, H1, emb_read (Base.keep hF b (oB.put ((by decide : ∀ a ∈ kCtl, a ∉ kBase) a ha) t)) H2
        (Ev.keep ec (oE.put ((by decide : ∀ a ∈ kCtl, a ∉ kEv) a ha) t))
        (Emb.keep hF s (oO.put ((by decide : ∀ a ∈ kCtl, a ∉ kEmb) a ha) t))⟩
    case embEv h =>
      obtain ⟨a, ha, t, H⟩ := Ev.change (F := F) h
      obtain ⟨H1, H2⟩ := H _ oE
      exact ⟨_, _, hP, H1, emb_read (Base.keep hF b (oB.put ((by decide : ∀ a ∈ kEv, a ∉ kBase) a ha) t))
        (Ctl.keep hF c hc (oC.put ((by decide : ∀ a ∈ kEv, a ∉ kCtl) a ha) t)) H2
        (Emb.keep hF s (oO.put ((by decide : ∀ a ∈ kEv, a ∉ kEmb) a ha) t))⟩
    case embOwn h =>
      obtain ⟨a, ha, t, H⟩ := Emb.change hF h
      obtain ⟨H1, H2⟩ := H _ oO
      exact ⟨_, _, hP, H1, emb_read (Base.keep hF b (oB.put ((by decide : ∀ a ∈ kEmb, a ∉ kBase) a ha) t))
        (Ctl.keep hF c hc (oC.put ((by decide : ∀ a ∈ kEmb, a ∉ kCtl) a ha) t))
        (Ev.keep ec (oE.put ((by decide : ∀ a ∈ kEmb, a ∉ kEv) a ha) t)) H2⟩
  | w1 b tr ec d =>
    intro l s' h
    obtain ⟨P, hP⟩ : ∃ P, (Solver.w1 b tr ec d).params F = .ok P := ⟨_, rfl⟩
    have hP' := hP
    simp only [Solver.params, Except.ok.injEq] at hP'
    have oB : On kBase P (b.params F) := by subst hP'; simp [On, kBase, find_put, saveEv, saveTrim, Base.params]
    have oT : On kTrim P (saveTrim F tr Params.nil) := by subst hP'; simp [On, kTrim, find_put, saveEv, saveTrim]
    have oE : On kEv P (saveEv ec Params.nil) := by subst hP'; simp [On, kEv, find_put, saveEv]
    have oD : findKV "d" P = some (leaf (F.put d)) := by subst hP'; simp [find_put]
    have oD' : ∀ {a : String} {t : Tree}, "d" ≠ a → findKV "d" (P.put a t) = some (leaf (F.put d)) := fun h => by
      rw [find_put, if_neg (Ne.symm h), oD]
    clear hP'
    generalize hw : v.map r = w at h
    simp only [Solver.map] at h
    cases h
    case w1Base h =>
      subst hw
      obtain ⟨a, ha, t, H⟩ := Base.change hF h
      obtain ⟨H1, H2⟩ := H _ oB
      exact ⟨_, _, hP, H1, w1_read H2 (Trim.keep hF tr hs (oT.put ((by decide : ∀ a ∈ kBase, a ∉ kTrim) a ha) t))
        (Ev.keep ec (oE.put ((by decide : ∀ a ∈ kBase, a ∉ kEv) a ha) t))
        (keep_value (oD' ((by decide : ∀ a ∈ kBase, "d" ≠ a) a ha)) (hF d))⟩
    case w1Trim h =>
      subst hw
      obtain ⟨a, ha, t, H⟩ := Trim.change hF hv h
      obtain ⟨H1, H2⟩ := H _ oT
      exact ⟨_, _, hP, H1, w1_read (Base.keep hF b (oB.put ((by decide : ∀ a ∈ kTrim, a ∉ kBase) a ha) t)) H2
        (Ev.keep ec (oE.put ((by decide : ∀ a ∈ kTrim, a ∉ kEv) a ha) t))
        (keep_value (oD' ((by decide : ∀ a ∈ kTrim, "d" ≠ a) a ha)) (hF d))⟩
    case w1Ev h =>
      subst hw
      obtain ⟨a, ha, t, H⟩ := Ev.change (F := F) h
      obtain ⟨H1, H2⟩ := H _ oE
      exact ⟨_, _, hP, H1, w1_read (Base.keep hF b (oB.put ((by decide : ∀ a ∈ kEv, a ∉ kBase) a ha) t))
        (Trim.keep hF tr hs (oT.put ((by decide : ∀ a ∈ kEv, a ∉ kTrim) a ha) t)) H2
        (keep_value (oD' ((by decide : ∀ a ∈ kEv, "d" ≠ a) a ha)) (hF d))⟩
    case w1D =>
      obtain ⟨x, rfl, rfl⟩ := Val.eq_num hw
      exact ⟨_, _, hP, assign_single oD _, w1_read (Base.keep hF b (oB.put (by decide) _))
        (Trim.keep hF tr hs (oT.put (by decide) _)) (Ev.keep ec (oE.put (by decide) _))
        (keep_value (find_self P "d" _) (hF x))⟩
  | sw24 b tr c ec d e =>
    intro l s' h
    obtain ⟨hc, ht⟩ := hs
    obtain ⟨P, hP⟩ : ∃ P, (Solver.sw24 b tr c ec d e).params F = .ok P := ⟨_, rfl⟩
    have hP' := hP
    simp only [Solver.params, Except.ok.injEq] at hP'
    have oB : On kBase P (b.params F) := by subst hP'; simp [On, kBase, find_put, saveEv, saveTrim, Ctl.save, Base.params]
    have oT : On kTrim P (saveTrim F tr Params.nil) := by subst hP'; simp [On, kTrim, find_put, saveEv, saveTrim, Ctl.save]
    have oC : On kCtl P (c.save F Params.nil) := by subst hP'; simp [On, kCtl, find_put, saveEv, Ctl.save]
    have oE : On kEv P (saveEv ec Params.nil) := by subst hP'; simp [On, kEv, find_put, saveEv]
    have oD : findKV "d" P = some (leaf (F.put d)) := by subst hP'; simp [find_put]
    have oX : findKV "disable_error_check" P = some (leaf (ofBool e)) := by subst hP'; simp [find_put]
    have oD' : ∀ {a : String} {t : Tree}, "d" ≠ a → findKV "d" (P.put a t) = some (leaf (F.put d)) := fun h => by
      rw [find_put, if_neg (Ne.symm h), oD]
    have oX' : ∀ {a : String} {t : Tree}, "disable_error_check" ≠ a →
        findKV "disable_error_check" (P.put a t) = some (leaf (ofBool e)) := fun h => by
      rw [find_put, if_neg (Ne.symm h), oX]
    clear hP'
    generalize hw : v.map r = w at h
    simp only [Solver.map] at h
    cases h
    case swBase h =>
      subst hw
      obtain ⟨a, ha, t, H⟩ := Base.change hF h
      obtain ⟨H1, H2⟩ := H _ oB
      exact ⟨_, _, hP, H1, sw_read H2 (Trim.keep hF tr ht (oT.put ((by decide : ∀ a ∈ kBase, a ∉ kTrim) a ha) t))
        (Ctl.keep hF c hc (oC.put ((by decide : ∀ a ∈ kBase, a ∉ kCtl) a ha) t))
        (Ev.keep ec (oE.put ((by decide : ∀ a ∈ kBase, a ∉ kEv) a ha) t))
        (keep_value (oD' ((by decide : ∀ a ∈ kBase, "d" ≠ a) a ha)) (hF d))
        (keep_value (oX' ((by decide : ∀ a ∈ kBase, "disable_error_check" ≠ a) a ha)) (bool_ok e))⟩
    case swTrim h =>
      subst hw
      obtain ⟨a, ha, t, H⟩ := Trim.change hF hv h
      obtain ⟨H1, H2⟩ := H _ oT
      exact ⟨_, _, hP, H1, sw_read (Base.keep hF b (oB.put ((by decide : ∀ a ∈ kTrim, a ∉ kBase) a ha) t)) H2
        (Ctl.keep hF c hc (oC.put ((by decide : ∀ a ∈ kTrim, a ∉ kCtl) a ha) t))
        (Ev.keep ec (oE.put ((by decide : ∀ a ∈ kTrim, a ∉ kEv) a ha) t))
        (keep_value (oD' ((by decide : ∀ a ∈ kTrim, "d" ≠ a) a ha)) (hF d))
        (keep_value (oX' ((by decide : ∀ a ∈ kTrim, "disable_error_check" ≠ a) a ha)) (bool_ok e))⟩
    case swCtl h =>
      subst hw
      obtain ⟨a, ha, t, H⟩ := Ctl.change hF hc h
      obtain ⟨H1, H2⟩ := H _ oC
      exact ⟨_, _, hP, H1, sw_read (Base.keep hF b (oB.put ((by decide : ∀ a ∈ kCtl, a ∉ kBase) a ha) t))
        (Trim.keep hF tr ht (oT.put ((by decide : ∀ a ∈ kCtl, a ∉ kTrim) a ha) t)) H2
        (Ev.keep ec (oE.put ((by decide : ∀ a ∈ kCtl, a ∉ kEv) a ha) t))
        (keep_value (oD' ((by decide : ∀ a ∈ kCtl, "d" ≠ a) a ha)) (hF d))
        (keep_value (oX' ((by decide : ∀ a ∈ kCtl, "disable_error_check" ≠ a) a ha)) (bool_ok e))⟩
    case swEv h =>
      subst hw
      obtain ⟨a, ha, t, H⟩ := Ev.change (F := F) h
      obtain ⟨H1, H2⟩ := H _ oE
      exact ⟨_, _, hP, H1, sw_read (Base.keep hF b (oB.put ((by decide : ∀ a ∈ kEv, a ∉ kBase) a ha) t))
        (Trim.keep hF tr ht (oT.put ((by decide : ∀ a ∈ kEv, a ∉ kTrim) a ha) t))
        (Ctl.keep hF c hc (oC.put ((by decide : ∀ a ∈ kEv, a ∉ kCtl) a ha) t)) H2
        (keep_value (oD' ((by decide : ∀ a ∈ kEv, "d" ≠ a) a ha)) (hF d))
        (keep_value (oX' ((by decide : ∀ a ∈ kEv, "disable_error_check" ≠ a) a ha)) (bool_ok e))⟩
    case swD =>
      obtain ⟨x, rfl, rfl⟩ := Val.eq_num hw
      exact ⟨_, _, hP, assign_single oD _, sw_read (Base.keep hF b (oB.put (by decide) _))
        (Trim.keep hF tr ht (oT.put (by decide) _)) (Ctl.keep hF c hc (oC.put (by decide) _)) (Ev.keep ec (oE.put (by decide) _))
        (keep_value (find_self P "d" _) (hF x)) (keep_value (oX' (by decide)) (bool_ok e))⟩
    case swCheck x =>
      obtain rfl := Val.eq_flag hw
      exact ⟨_, _, hP, assign_single oX _, sw_read (Base.keep hF b (oB.put (by decide) _))
        (Trim.keep hF tr ht (oT.put (by decide) _)) (Ctl.keep hF c hc (oC.put (by decide) _)) (Ev.keep ec (oE.put (by decide) _))
        (keep_value (oD' (by decide)) (hF d)) (keep_value (find_self P "disable_error_check" _) (bool_ok x))⟩
  | gragg b ec e =>
    intro l s' h
    obtain ⟨P, hP⟩ : ∃ P, (Solver.gragg b ec e).params F = .ok P := ⟨_, rfl⟩
    have hP' := hP
    simp only [Solver.params, Except.ok.injEq] at hP'
    have oB : On kBase P (b.params F) := by subst hP'; simp [On, kBase, find_put, saveEv, Base.params]
    have oE : On kEv P (saveEv ec Params.nil) := by subst hP'; simp [On, kEv, find_put, saveEv]
    have oX : findKV "smooth" P = some (leaf (ofBool e)) := by subst hP'; simp [find_put]
    have oX' : ∀ {a : String} {t : Tree}, "smooth" ≠ a → findKV "smooth" (P.put a t) = some (leaf (ofBool e)) := fun h => by
      rw [find_put, if_neg (Ne.symm h), oX]
    clear hP'
    generalize hw : v.map r = w at h
    simp only [Solver.map] at h
    cases h
    case graggBase h =>
      subst hw
      obtain ⟨a, ha, t, H⟩ := Base.change hF h
      obtain ⟨H1, H2⟩ := H _ oB
      exact ⟨_, _, hP, H1, gragg_read H2 (Ev.keep ec (oE.put ((by decide : ∀ a ∈ kBase, a ∉ kEv) a ha) t))
        (keep_value (oX' ((by decide : ∀ a ∈ kBase, "smooth" ≠ a) a ha)) (bool_ok e))⟩
    case graggEv h =>
      subst hw
      obtain ⟨a, ha, t, H⟩ := Ev.change (F := F) h
      obtain ⟨H1, H2⟩ := H _ oE
      exact ⟨_, _, hP, H1, gragg_read (Base.keep hF b (oB.put ((by decide : ∀ a ∈ kEv, a ∉ kBase) a ha) t)) H2
        (keep_value (oX' ((by decide : ∀ a ∈ kEv, "smooth" ≠ a) a ha)) (bool_ok e))⟩
    case graggSmooth x =>
      obtain rfl := Val.eq_flag hw
      exact ⟨_, _, hP, assign_single oX _, gragg_read (Base.keep hF b (oB.put (by decide) _)) (Ev.keep ec (oE.put (by decide) _))
        (keep_value (find_self P "smooth" _) (bool_ok x))⟩
  | extrapolator b c ec s q ref ih =>
    intro l s' h
    obtain ⟨hc, hst, hr⟩ := hs
    obtain ⟨S, hS, -, hload⟩ := Solver.set_params hF ref hr
    obtain ⟨P, hP⟩ : ∃ P, (Solver.extrapolator b c ec s q ref).params F = .ok P :=
      ⟨_, by rw [Solver.params]; simp only [hS, bind_ok]; rfl⟩
    have hP' := hP
    simp only [Solver.params, hS, bind_ok, Except.ok.injEq] at hP'
    have oB : On kBase P (b.params F) := by subst hP'; simp [On, kBase, find_put, saveEv, Ctl.save, Base.params]
    have oC : On kCtl P (c.save F Params.nil) := by subst hP'; simp [On, kCtl, find_put, saveEv, Ctl.save]
    have oE : On kEv P (saveEv ec Params.nil) := by subst hP'; simp [On, kEv, find_put, saveEv]
    have oO : On kEx P (exOwn s) := by subst hP'; simp [On, kEx, find_put, exOwn]
    have oQ : On kSeq P (seqOwn q) := by subst hP'; simp [On, kSeq, find_put, seqOwn]
    have oR : findKV "reference_solver" P = some (ref.node S) := by subst hP'; simp [find_put]
    have oR' : ∀ {a : String} {t : Tree}, "reference_solver" ≠ a → findKV "reference_solver" (P.put a t) = some (ref.node S) :=
      fun h => by rw [find_put, if_neg (Ne.symm h), oR]
    clear hP'
    have last : ∀ {T : Tree} {ref' : Solver R}, Solver.load F T = .ok ref' → ∀ y : Solver R,
        y.id = (Solver.extrapolator b c ec s q ref).id → y.set F (P.put "reference_solver" T) =
          .ok (.extrapolator (b.map r) (c.map r) ec s q ref') := fun hT =>
      ex_read (Base.keep hF b (oB.put (by decide) _)) (Ctl.keep hF c hc (oC.put (by decide) _))
        (Ev.keep ec (oE.put (by decide) _)) (Ex.keep s hst (oO.put (by decide) _)) (Seq.keep q (oQ.put (by decide) _))
        (by rw [find_put, if_pos rfl]) hT
    generalize hw : v.map r = w at h
    simp only [Solver.map] at h
    cases h
    case exBase h =>
      subst hw
      obtain ⟨a, ha, t, H⟩ := Base.change hF h
      obtain ⟨H1, H2⟩ := H _ oB
      exact ⟨_, _, hP, H1, ex_read H2 (Ctl.keep hF c hc (oC.put ((by decide : ∀ a ∈ kBase, a ∉ kCtl) a ha) t))
        (Ev.keep ec (oE.put ((by decide : ∀ a ∈ kBase, a ∉ kEv) a ha) t))
        (Ex.keep s hst (oO.put ((by decide : ∀ a ∈ kBase, a ∉ kEx) a ha) t))
        (Seq.keep q (oQ.put ((by decide : ∀ a ∈ kBase, a ∉ kSeq) a ha) t))
        (oR' ((by decide : ∀ a ∈ kBase, "reference_solver" ≠ a) a ha)) hload⟩
    case exCtl h =>
      subst hw
      obtain ⟨a, ha, t, H⟩ := Ctl.change hF hc h
      obtain ⟨H1, H2⟩ := H _ oC
      exact ⟨_, _, hP, H1, ex_read (Base.keep hF b (oB.put ((by decide : ∀ a ∈ kCtl, a ∉ kBase) a ha) t)) H2
        (Ev.keep ec (oE.put ((by decide : ∀ a ∈ kCtl, a ∉ kEv) a ha) t))
        (Ex.keep s hst (oO.put ((by decide : ∀ a ∈ kCtl, a ∉ kEx) a ha) t))
        (Seq.keep q (oQ.put ((by decide : ∀ a ∈ kCtl, a ∉ kSeq) a ha) t))
        (oR' ((by decide : ∀ a ∈ kCtl, "reference_solver" ≠ a) a ha)) hload⟩
    case exEv h =>
      subst hw
      obtain ⟨a, ha, t, H⟩ := Ev.change (F := F) h
      obtain ⟨H1, H2⟩ := H _ oE
      exact ⟨_, _, hP, H1, ex_read (Base.keep hF b (oB.put ((by decide : ∀ a ∈ kEv, a ∉ kBase) a ha) t))
        (Ctl.keep hF c hc (oC.put ((by decide : ∀ a ∈ kEv, a ∉ kCtl) a ha) t)) H2
        (Ex.keep s hst (oO.put ((by decide : ∀ a ∈ kEv, a ∉ kEx) a ha) t))
        (Seq.keep q (oQ.put ((by decide : ∀ a ∈ kEv, a ∉ kSeq) a ha) t))
        (oR' ((by decide : ∀ a ∈ kEv, "reference_solver" ≠ a) a ha)) hload⟩
    case exOwn h =>
      subst hw
      obtain ⟨a, ha, t, H⟩ := Ex.change (F := F) hst hv h
      obtain ⟨H1, H2⟩ := H _ oO
      exact ⟨_, _, hP, H1, ex_read (Base.keep hF b (oB.put ((by decide : ∀ a ∈ kEx, a ∉ kBase) a ha) t))
        (Ctl.keep hF c hc (oC.put ((by decide : ∀ a ∈ kEx, a ∉ kCtl) a ha) t))
        (Ev.keep ec (oE.put ((by decide : ∀ a ∈ kEx, a ∉ kEv) a ha) t)) H2
        (Seq.keep q (oQ.put ((by decide : ∀ a ∈ kEx, a ∉ kSeq) a ha) t))
        (oR' ((by decide : ∀ a ∈ kEx, "reference_solver" ≠ a) a ha)) hload⟩
    case exSeq h =>
      subst hw
      obtain ⟨a, ha, t, H⟩ := Seq.change (F := F) h
      obtain ⟨H1, H2⟩ := H _ oQ
      exact ⟨_, _, hP, H1, ex_read (Base.keep hF b (oB.put ((by decide : ∀ a ∈ kSeq, a ∉ kBase) a ha) t))
        (Ctl.keep hF c hc (oC.put ((by decide : ∀ a ∈ kSeq, a ∉ kCtl) a ha) t))
        (Ev.keep ec (oE.put ((by decide : ∀ a ∈ kSeq, a ∉ kEv) a ha) t))
        (Ex.keep s hst (oO.put ((by decide : ∀ a ∈ kSeq, a ∉ kEx) a ha) t)) H2
        (oR' ((by decide : ∀ a ∈ kSeq, "reference_solver" ≠ a) a ha)) hload⟩
    case exNew h =>
      obtain rfl := Val.eq_word hw
      exact ⟨_, _, hP, assign_single oR _, last (Solver.named h)⟩
    case exRef h =>
      subst hw
      obtain ⟨S', S'', hS', hA, hset⟩ := ih hr h
      obtain rfl : S = S' := by rw [hS] at hS'; injection hS'
      have hne : ref ≠ .null := by rintro rfl; cases h
      rw [Solver.node_obj ref hne] at oR
      refine ⟨_, _, hP, assign_nested oR hA, last ?_⟩
      have := Solver.load_of_set ref S'' _ (fun e => absurd e hne) hset
      rw [Solver.node_obj ref hne] at this
      exact this
  | implicit b n ec al pr m re ih =>
    intro l s' h
    obtain ⟨hn, hr, hst, rfl⟩ := hs
    obtain ⟨S, hS, -, hload⟩ := Solver.set_params hF pr hr
    obtain ⟨N, hN, hNs, hNc⟩ := Newton.set_params hF n hn
    have hNl : ∀ {N' : Params} {n' : Newton R}, (∀ y : Newton R, y.set F N' = .ok n') →
        asPtr Newton.new (Newton.set F) (obj "newton" N') = .ok (some n') := fun h => by
      rw [load_node _ _ _ _ _ (by decide) (by rfl), h]
      rfl
    obtain ⟨P, hP⟩ : ∃ P, (Solver.implicit b n ec al pr m false).params F = .ok P :=
      ⟨_, by rw [Solver.params]; simp only [hN, hS, bind_ok]; rfl⟩
    have hP' := hP
    simp only [Solver.params, hN, hS, bind_ok, Except.ok.injEq] at hP'
    have oB : On kBase P (b.params F) := by subst hP'; simp [On, kBase, find_put, saveEv, Base.params]
    have oE : On kEv P (saveEv ec Params.nil) := by subst hP'; simp [On, kEv, find_put, saveEv]
    have oA : findKV "algsolver" P = some (obj "newton" N) := by subst hP'; simp [find_put, saveEv]
    have oL : findKV "alpha" P = some (leaf (F.put al)) := by subst hP'; simp [find_put]
    have oR : findKV "predictor" P = some (pr.node S) := by subst hP'; simp [find_put]
    have oM : findKV "predictor_steps" P = some (leaf (ofUnsigned m)) := by subst hP'; simp [find_put]
    have oX : findKV "reorder" P = some Config.null := by subst hP'; simp [find_put]
    clear hP'
    have g : ∀ {a b : String} {T : Tree} {x : Option Tree}, findKV a P = x → a ≠ b → findKV a (P.put b T) = x :=
      fun h hab => by rw [find_put, if_neg (Ne.symm hab), h]
    have g0 : ∀ {a : String} {T : Tree}, findKV a (P.put a T) = some T := by
      intro a T
      rw [find_put, if_pos rfl]
    have last : ∀ {T : Tree} {pr' : Solver R}, Solver.load F T = .ok pr' → ∀ y : Solver R,
        y.id = (Solver.implicit b n ec al pr m false).id → y.set F (P.put "predictor" T) =
          .ok (.implicit (b.map r) (n.map r) ec (r al) pr' m false) := fun hT =>
      im_read (Base.keep hF b (oB.put (by decide) _)) (g oA (by decide)) (hNl hNs) hNc
        (Ev.keep ec (oE.put (by decide) _)) (keep_value (g oL (by decide)) (hF al)) g0 hT
        (keep_value (g oM (by decide)) (unsigned_ok hst)) (g oX (by decide))
    generalize hw : v.map r = w at h
    simp only [Solver.map] at h
    cases h
    case imBase h =>
      subst hw
      obtain ⟨a, ha, t, H⟩ := Base.change hF h
      obtain ⟨H1, H2⟩ := H _ oB
      exact ⟨_, _, hP, H1, im_read H2 (g oA ((by decide : ∀ a ∈ kBase, "algsolver" ≠ a) a ha)) (hNl hNs) hNc
        (Ev.keep ec (oE.put ((by decide : ∀ a ∈ kBase, a ∉ kEv) a ha) t))
        (keep_value (g oL ((by decide : ∀ a ∈ kBase, "alpha" ≠ a) a ha)) (hF al))
        (g oR ((by decide : ∀ a ∈ kBase, "predictor" ≠ a) a ha)) hload
        (keep_value (g oM ((by decide : ∀ a ∈ kBase, "predictor_steps" ≠ a) a ha)) (unsigned_ok hst))
        (g oX ((by decide : ∀ a ∈ kBase, "reorder" ≠ a) a ha))⟩
    case imEv h =>
      subst hw
      obtain ⟨a, ha, t, H⟩ := Ev.change (F := F) h
      obtain ⟨H1, H2⟩ := H _ oE
      exact ⟨_, _, hP, H1, im_read (Base.keep hF b (oB.put ((by decide : ∀ a ∈ kEv, a ∉ kBase) a ha) t))
        (g oA ((by decide : ∀ a ∈ kEv, "algsolver" ≠ a) a ha)) (hNl hNs) hNc H2
        (keep_value (g oL ((by decide : ∀ a ∈ kEv, "alpha" ≠ a) a ha)) (hF al))
        (g oR ((by decide : ∀ a ∈ kEv, "predictor" ≠ a) a ha)) hload
        (keep_value (g oM ((by decide : ∀ a ∈ kEv, "predictor_steps" ≠ a) a ha)) (unsigned_ok hst))
        (g oX ((by decide : ∀ a ∈ kEv, "reorder" ≠ a) a ha))⟩
    case imNewton h =>
      subst hw
      obtain ⟨N0, N', hN0, hA, hset, hc⟩ := Newton.change hF hn hv h
      obtain rfl : N = N0 := by rw [hN] at hN0; injection hN0
      exact ⟨_, _, hP, assign_nested oA hA, im_read (Base.keep hF b (oB.put (by decide) _)) g0 (hNl hset) hc
        (Ev.keep ec (oE.put (by decide) _)) (keep_value (g oL (by decide)) (hF al)) (g oR (by decide)) hload
        (keep_value (g oM (by decide)) (unsigned_ok hst)) (g oX (by decide))⟩
    case imNew =>
      obtain rfl := Val.eq_word hw
      exact ⟨_, _, hP, assign_single oA _, im_read (Base.keep hF b (oB.put (by decide) _)) g0 (by rfl) (by rfl)
        (Ev.keep ec (oE.put (by decide) _)) (keep_value (g oL (by decide)) (hF al)) (g oR (by decide)) hload
        (keep_value (g oM (by decide)) (unsigned_ok hst)) (g oX (by decide))⟩
    case imAlpha =>
      obtain ⟨x, rfl, rfl⟩ := Val.eq_num hw
      exact ⟨_, _, hP, assign_single oL _, im_read (Base.keep hF b (oB.put (by decide) _)) (g oA (by decide)) (hNl hNs) hNc
        (Ev.keep ec (oE.put (by decide) _)) (keep_value g0 (hF x)) (g oR (by decide)) hload
        (keep_value (g oM (by decide)) (unsigned_ok hst)) (g oX (by decide))⟩
    case imSteps =>
      obtain rfl := Val.eq_nat hw
      exact ⟨_, _, hP, assign_single oM _, im_read (Base.keep hF b (oB.put (by decide) _)) (g oA (by decide)) (hNl hNs) hNc
        (Ev.keep ec (oE.put (by decide) _)) (keep_value (g oL (by decide)) (hF al)) (g oR (by decide)) hload
        (keep_value g0 (unsigned_ok hv)) (g oX (by decide))⟩
    case imNewPr h =>
      obtain rfl := Val.eq_word hw
      exact ⟨_, _, hP, assign_single oR _, last (Solver.named h)⟩
    case imPr h =>
      subst hw
      obtain ⟨S', S'', hS', hA, hset⟩ := ih hr h
      obtain rfl : S = S' := by rw [hS] at hS'; injection hS'
      have hne : pr ≠ .null := by rintro rfl; cases h
      rw [Solver.node_obj pr hne] at oR
      refine ⟨_, _, hP, assign_nested oR hA, last ?_⟩
      have := Solver.load_of_set pr S'' _ (fun e => absurd e hne) hset
      rw [Solver.node_obj pr hne] at this
      exact this

end

end Verif.Config
