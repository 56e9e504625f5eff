import Verif.Config.SetProvider
import Verif.Config.Props

/-
C121: setting one parameter of a configuration changes the setting it is and no other.
-/

set_option linter.unusedSectionVars false
set_option linter.unnecessarySeqFocus false
set_option linter.unusedSimpArgs false

namespace Verif.Config

open Verif.Infra Verif.Driver Verif.TestModels Verif.Res

section
variable {R : Type} [Field R] {F : Fmt R} {r : R → R}

theorem provider_read {Q : Params} {m : Option (Model R)} {s s' : Solver R} {tm o : R}
    {a1 a2 a3 : Option Output} {st : Option (InitState R)} {T1 T2 T3 T7 T8 T9 T10 : Tree} {t1 t2 t3 : Text}
    (h1 : findKV "rhs" Q = some T1) (h2 : findKV "solver" Q = some T2) (h3 : findKV "reference_solver" Q = some T3)
    (h4 : findKV "time" Q = some (leaf t1)) (h5 : findKV "output_timing" Q = some (leaf t2))
    (h6 : findKV "simout_basename" Q = some (leaf t3)) (h7 : findKV "output_stats" Q = some T7)
    (h8 : findKV "output_con" Q = some T8) (h9 : findKV "output_file" Q = some T9) (h10 : findKV "init_state" Q = some T10)
    (e1 : asPtr Model.new (Model.set F) T1 = .ok m) (e2 : Solver.load F T2 = .ok s)
    (e3 : Solver.load F T3 = .ok s') (e4 : F.get t1 = .ok tm) (e5 : F.get t2 = .ok o)
    (e7 : asPtr Output.new Output.set T7 = .ok a1) (e8 : asPtr Output.new Output.set T8 = .ok a2)
    (e9 : asPtr Output.new Output.set T9 = .ok a3) (e10 : asPtr initNew (initSet F) T10 = .ok st)
    (q : Provider R) : q.set F Q = .ok ⟨m, s, s', tm, o, t3, a1, a2, a3, st⟩ := by
  simp [Provider.set, maybeLoad, maybeSet, h1, h2, h3, h4, h5, h6, h7, h8, h9, h10, e1, e2, e3, e7, e8, e9, e10, leaf, Tree.text,
    e4, e5, asText]

/-- C121. Let the text of every number be accepted and read as `r` of the number, and let the settings be such that they can be
saved. Then `setValue` with a path and a value of the list `Provider.Sets` (all parameters of all classes) works, and gives
the settings with the named one changed and no other, all real numbers replaced by `r` of them. -/
theorem C121_set_partial (hF : ∀ x, F.get (F.put x) = .ok (r x)) (p : Provider R) (hp : p.Good) {v : Val R} (hv : v.Good)
    {path : List String} {p' : Provider R} (h : Provider.Sets (p.map r) path (v.map r) p') :
    p.setValue F path v = .ok p' := by
  obtain ⟨g1, g2, g3, g4, g5, g6, g7⟩ := hp
  obtain ⟨S, hS, -, hSl⟩ := Solver.set_params hF p.solver g2
  obtain ⟨T, hT, -, hTl⟩ := Solver.set_params hF p.ref g3
  have e4 := Output.load_ptr p.stats g4
  have e5 := Output.load_ptr p.con g5
  have e6 := Output.load_ptr p.file g6
  have e7 := init_load_ptr hF p.init g7
  obtain ⟨M, P, hM, hMl, hP, hP'⟩ : ∃ M P, (∀ m, p.rhs = some m → ∃ N, m.params F = .ok N ∧ M = obj m.id N) ∧
      asPtr Model.new (Model.set F) M = .ok (p.rhs.map (Model.map r)) ∧ p.params F = .ok P ∧
      (let out := ptr (fun o => obj o.id o.params)
      ((((((((((Params.nil.put "rhs" M).put "solver" (p.solver.node S)).put "reference_solver" (p.ref.node T)).put "time"
        (leaf (F.put p.time))).put "output_timing" (leaf (F.put p.timing))).put "simout_basename" (leaf p.basename)).put
        "output_stats" (out p.stats)).put "output_con" (out p.con)).put "output_file" (out p.file)).put "init_state"
        (ptr (fun s => obj "specified" (initParams F s)) p.init)) = P) := by
    cases hm : p.rhs with
    | none =>
      refine ⟨Config.null, _, (fun m h => nomatch h), rfl, ?_, rfl⟩
      rw [Provider.params]
      simp only [hm, hS, hT, bind_ok]
    | some m =>
      obtain ⟨M, h1, h2⟩ := Model.load_params hF m (g1 m hm)
      refine ⟨obj m.id M, _, fun m' h => ?_, h2, ?_, rfl⟩
      · injection h with h
        subst h
        exact ⟨M, h1, rfl⟩
      · rw [Provider.params]
        simp only [hm, h1, hS, hT, bind_ok]
  have k1 : findKV "rhs" P = some M := by subst hP'; simp [find_put]
  have k2 : findKV "solver" P = some (p.solver.node S) := by subst hP'; simp [find_put]
  have k3 : findKV "reference_solver" P = some (p.ref.node T) := by subst hP'; simp [find_put]
  have k4 : findKV "time" P = some (leaf (F.put p.time)) := by subst hP'; simp [find_put]
  have k5 : findKV "output_timing" P = some (leaf (F.put p.timing)) := by subst hP'; simp [find_put]
  have k6 : findKV "simout_basename" P = some (leaf p.basename) := by subst hP'; simp [find_put]
  have k7 : findKV "output_stats" P = some (ptr (fun o => obj o.id o.params) p.stats) := by subst hP'; simp [find_put]
  have k8 : findKV "output_con" P = some (ptr (fun o => obj o.id o.params) p.con) := by subst hP'; simp [find_put]
  have k9 : findKV "output_file" P = some (ptr (fun o => obj o.id o.params) p.file) := by subst hP'; simp [find_put]
  have k10 : findKV "init_state" P = some (ptr (fun s => obj "specified" (initParams F s)) p.init) := by
    subst hP'; simp [find_put]
  clear hP'
  have nx : ∀ {a b : String} {T : Tree} {x : Option Tree}, findKV a P = x → a ≠ b → findKV a (P.put b T) = x :=
    fun h hab => by rw [find_put, if_neg (Ne.symm hab), h]
  have fin : ∀ {k : String} {U : Tree}, P.assign path (leaf (v.text F)) = .ok (P.put k U) →
      p.set F (P.put k U) = .ok p' → p.setValue F path v = .ok p' := fun h1 h2 => by
    unfold Provider.setValue
    rw [hP]
    simp only [bind_ok, h1, h2]
  generalize hw : v.map r = w at h
  cases h
  case newRhs h =>
    obtain rfl := Val.eq_word hw
    refine fin (assign_single k1 _) ?_
    exact (provider_read (find_self _ _ _) (nx k2 (by decide)) (nx k3 (by decide)) (nx k4 (by decide))
      (nx k5 (by decide)) (nx k6 (by decide)) (nx k7 (by decide)) (nx k8 (by decide)) (nx k9 (by decide)) (nx k10 (by decide))
      (Model.named h) hSl hTl (hF _) (hF _) e4 e5 e6 e7 _)
  case rhs m m' k hm h =>
    subst hw
    cases hq : p.rhs with
    | none => simp [Provider.map, hq] at hm
    | some m0 =>
      simp [Provider.map, hq] at hm
      subst hm
      obtain ⟨Q, Q', h1, h2, h3⟩ := Model.change hF (g1 m0 hq) hv h
      obtain ⟨N, hN, rfl⟩ := hM m0 hq
      obtain rfl : N = Q := by rw [hN] at h1; injection h1
      refine fin (assign_nested k1 h2) ?_
      exact (provider_read (find_self _ _ _) (nx k2 (by decide)) (nx k3 (by decide))
        (nx k4 (by decide)) (nx k5 (by decide)) (nx k6 (by decide)) (nx k7 (by decide)) (nx k8 (by decide)) (nx k9 (by decide))
        (nx k10 (by decide)) h3 hSl hTl (hF _) (hF _) e4 e5 e6 e7 _)
  case newSolver h =>
    obtain rfl := Val.eq_word hw
    refine fin (assign_single k2 _) ?_
    exact (provider_read (nx k1 (by decide)) (find_self _ _ _) (nx k3 (by decide)) (nx k4 (by decide))
      (nx k5 (by decide)) (nx k6 (by decide)) (nx k7 (by decide)) (nx k8 (by decide)) (nx k9 (by decide)) (nx k10 (by decide))
      hMl (Solver.named h) hTl (hF _) (hF _) e4 e5 e6 e7 _)
  case solver s l h =>
    subst hw
    obtain ⟨Q, Q', h1, h2, h3⟩ := Solver.change hF p.solver g2 hv h
    obtain rfl : S = Q := by rw [hS] at h1; injection h1
    have hne : p.solver ≠ .null := by
      intro e
      simp only [Provider.map, e] at h
      cases h
    rw [Solver.node_obj _ hne] at k2
    have h4 := Solver.load_of_set p.solver Q' _ (fun e => absurd e hne) h3
    rw [Solver.node_obj _ hne] at h4
    refine fin (assign_nested k2 h2) ?_
    exact (provider_read (nx k1 (by decide)) (find_self _ _ _) (nx k3 (by decide))
      (nx k4 (by decide)) (nx k5 (by decide)) (nx k6 (by decide)) (nx k7 (by decide)) (nx k8 (by decide)) (nx k9 (by decide))
      (nx k10 (by decide)) hMl h4 hTl (hF _) (hF _) e4 e5 e6 e7 _)
  case newRef h =>
    obtain rfl := Val.eq_word hw
    refine fin (assign_single k3 _) ?_
    exact (provider_read (nx k1 (by decide)) (nx k2 (by decide)) (find_self _ _ _) (nx k4 (by decide))
      (nx k5 (by decide)) (nx k6 (by decide)) (nx k7 (by decide)) (nx k8 (by decide)) (nx k9 (by decide)) (nx k10 (by decide))
      hMl hSl (Solver.named h) (hF _) (hF _) e4 e5 e6 e7 _)
  case ref s l h =>
    subst hw
    obtain ⟨Q, Q', h1, h2, h3⟩ := Solver.change hF p.ref g3 hv h
    obtain rfl : T = Q := by rw [hT] at h1; injection h1
    have hne : p.ref ≠ .null := by
      intro e
      simp only [Provider.map, e] at h
      cases h
    rw [Solver.node_obj _ hne] at k3
    have h4 := Solver.load_of_set p.ref Q' _ (fun e => absurd e hne) h3
    rw [Solver.node_obj _ hne] at h4
    refine fin (assign_nested k3 h2) ?_
    exact (provider_read (nx k1 (by decide)) (nx k2 (by decide)) (find_self _ _ _)
      (nx k4 (by decide)) (nx k5 (by decide)) (nx k6 (by decide)) (nx k7 (by decide)) (nx k8 (by decide)) (nx k9 (by decide))
      (nx k10 (by decide)) hMl hSl h4 (hF _) (hF _) e4 e5 e6 e7 _)
  case time =>
    obtain ⟨x, rfl, rfl⟩ := Val.eq_num hw
    refine fin (assign_single k4 _) ?_
    exact (provider_read (nx k1 (by decide)) (nx k2 (by decide)) (nx k3 (by decide)) (find_self _ _ _)
      (nx k5 (by decide)) (nx k6 (by decide)) (nx k7 (by decide)) (nx k8 (by decide)) (nx k9 (by decide)) (nx k10 (by decide))
      hMl hSl hTl (hF _) (hF _) e4 e5 e6 e7 _)
  case timing =>
    obtain ⟨x, rfl, rfl⟩ := Val.eq_num hw
    refine fin (assign_single k5 _) ?_
    exact (provider_read (nx k1 (by decide)) (nx k2 (by decide)) (nx k3 (by decide)) (nx k4 (by decide))
      (find_self _ _ _) (nx k6 (by decide)) (nx k7 (by decide)) (nx k8 (by decide)) (nx k9 (by decide)) (nx k10 (by decide))
      hMl hSl hTl (hF _) (hF _) e4 e5 e6 e7 _)
  case basename =>
    obtain rfl := Val.eq_word hw
    refine fin (assign_single k6 _) ?_
    exact (provider_read (nx k1 (by decide)) (nx k2 (by decide)) (nx k3 (by decide)) (nx k4 (by decide))
      (nx k5 (by decide)) (find_self _ _ _) (nx k7 (by decide)) (nx k8 (by decide)) (nx k9 (by decide)) (nx k10 (by decide))
      hMl hSl hTl (hF _) (hF _) e4 e5 e6 e7 _)
  case stats h =>
    subst hw
    obtain ⟨U, h1, h2⟩ := Out.change (F := F) g4 hv k7 h
    refine fin h1 ?_
    exact (provider_read (nx k1 (by decide)) (nx k2 (by decide)) (nx k3 (by decide)) (nx k4 (by decide))
      (nx k5 (by decide)) (nx k6 (by decide)) (find_self _ _ _) (nx k8 (by decide)) (nx k9 (by decide)) (nx k10 (by decide))
      hMl hSl hTl (hF _) (hF _) h2 e5 e6 e7 _)
  case con h =>
    subst hw
    obtain ⟨U, h1, h2⟩ := Out.change (F := F) g5 hv k8 h
    refine fin h1 ?_
    exact (provider_read (nx k1 (by decide)) (nx k2 (by decide)) (nx k3 (by decide)) (nx k4 (by decide))
      (nx k5 (by decide)) (nx k6 (by decide)) (nx k7 (by decide)) (find_self _ _ _) (nx k9 (by decide)) (nx k10 (by decide))
      hMl hSl hTl (hF _) (hF _) e4 h2 e6 e7 _)
  case file h =>
    subst hw
    obtain ⟨U, h1, h2⟩ := Out.change (F := F) g6 hv k9 h
    refine fin h1 ?_
    exact (provider_read (nx k1 (by decide)) (nx k2 (by decide)) (nx k3 (by decide)) (nx k4 (by decide))
      (nx k5 (by decide)) (nx k6 (by decide)) (nx k7 (by decide)) (nx k8 (by decide)) (find_self _ _ _) (nx k10 (by decide))
      hMl hSl hTl (hF _) (hF _) e4 e5 h2 e7 _)
  case init h =>
    subst hw
    obtain ⟨U, h1, h2⟩ := Init.change hF g7 hv k10 h
    refine fin h1 ?_
    exact (provider_read (nx k1 (by decide)) (nx k2 (by decide)) (nx k3 (by decide)) (nx k4 (by decide))
      (nx k5 (by decide)) (nx k6 (by decide)) (nx k7 (by decide)) (nx k8 (by decide)) (nx k9 (by decide)) (find_self _ _ _)
      hMl hSl hTl (hF _) (hF _) e4 e5 e6 h2 _)

/-! ### One after another -/

theorem Solver.good_map (s : Solver R) (h : s.Good) : (s.map r).Good := by
  induction s with
  | null | fixed | gragg => trivial
  | embedded => exact h
  | w1 b t ec d =>
    intro x hx
    cases t with
    | none => cases hx
    | some t => cases hx; have := h t rfl; cases t <;> exact this
  | sw24 b t c ec d e =>
    refine ⟨h.1, fun x hx => ?_⟩
    cases t with
    | none => cases hx
    | some t => cases hx; have := h.2 t rfl; cases t <;> exact this
  | extrapolator b c ec s q ref ih => exact ⟨h.1, h.2.1, ih h.2.2⟩
  | implicit b n ec a pr k re ih =>
    refine ⟨⟨h.1.1, fun p hp => ?_⟩, ih h.2.1, h.2.2⟩
    obtain ⟨it, lim⟩ := n
    cases it with
    | none => cases hp
    | some q =>
      cases hp
      obtain ⟨h1, d, j, h2, h3, h4, h5⟩ := h.1.2 q rfl
      obtain ⟨_, se, es⟩ := q
      subst h2
      obtain ⟨dk, _⟩ := d
      subst h3
      obtain ⟨jk, t⟩ := j
      refine ⟨h1, _, _, rfl, rfl, h4, fun x hx => ?_⟩
      cases t with
      | none => cases hx
      | some t => cases hx; have := h5 t rfl; cases t <;> exact this

theorem Val.good_map {v : Val R} (h : v.Good) : (v.map r).Good := by
  cases v <;> exact h

theorem TrimSets.good {t t' : Option (Trim R)} {l : List String} {v : Val R} (h : TrimSets t l v t') (hv : v.Good) :
    ∀ x ∈ t', x.Good := by
  cases h <;> intro x hx <;> cases hx
  · exact Nat.two_pow_pos 32
  · trivial
  · exact hv
  · trivial

theorem Ctl.Sets.good {c c' : Ctl R} {l : List String} {v : Val R} (h : Ctl.Sets c l v c') (hc : c.enorm ≠ none) :
    c'.enorm ≠ none := by
  cases h <;> first | exact hc | simp

theorem Newton.Sets.good {n n' : Newton R} {l : List String} {v : Val R} (h : Newton.Sets n l v n') (hn : n.Good)
    (hv : v.Good) : n'.Good := by
  cases h
  case limit => exact ⟨hv, hn.2⟩
  case drop => exact ⟨hn.1, fun p hp => nomatch hp⟩
  case ddir k k' j s e m i h =>
    obtain ⟨h1, d, j, h2, h3, h4, h5⟩ := hn.2 _ rfl
    cases h2
    refine ⟨hn.1, fun p hp => ?_⟩
    cases hp
    refine ⟨h1, _, j, rfl, h3, ?_, h5⟩
    cases h <;> first | trivial | (show 10 < 2 ^ 32; norm_num)
  case lazy =>
    obtain ⟨h1, d, j, h2, h3, h4, h5⟩ := hn.2 _ rfl
    cases h2
    refine ⟨hn.1, fun p hp => ?_⟩
    cases hp
    exact ⟨h1, _, j, rfl, h3, hv, h5⟩
  case jacobian =>
    obtain ⟨h1, d, j, h2, h3, h4, h5⟩ := hn.2 _ rfl
    cases h2
    cases h3
    refine ⟨hn.1, fun p hp => ?_⟩
    cases hp
    exact ⟨h1, _, _, rfl, rfl, h4, h5⟩
  case jtrim h =>
    obtain ⟨h1, d, j, h2, h3, h4, h5⟩ := hn.2 _ rfl
    cases h2
    cases h3
    refine ⟨hn.1, fun p hp => ?_⟩
    cases hp
    exact ⟨h1, _, _, rfl, rfl, h4, h.good hv⟩
  case search =>
    obtain ⟨h1, h2⟩ := hn.2 _ rfl
    refine ⟨hn.1, fun p hp => ?_⟩
    cases hp
    exact ⟨by simp, h2⟩
  case newErr =>
    have := hn.2 _ rfl
    refine ⟨hn.1, fun p hp => ?_⟩
    cases hp
    exact this
  case dropErr =>
    have := hn.2 _ rfl
    refine ⟨hn.1, fun p hp => ?_⟩
    cases hp
    exact this
  case err =>
    have := hn.2 _ rfl
    refine ⟨hn.1, fun p hp => ?_⟩
    cases hp
    exact this

theorem newton_default_good : (⟨some ⟨some ⟨.simple, some ⟨.default, none⟩⟩, some .simple,
    some ⟨1 / 10 ^ 6, 1 / 10 ^ 6, 10 ^ 20, 10⟩⟩, 100⟩ : Newton R).Good := by
  refine ⟨by norm_num, fun p hp => ?_⟩
  cases hp
  exact ⟨by simp, _, _, rfl, rfl, trivial, fun x hx => nomatch hx⟩

theorem Solver.Named.good {i : String} {s : Solver R} (h : Solver.Named i s) : s.Good := by
  cases h
  case w1 => exact fun x hx => nomatch hx
  case sw24 => exact ⟨by simp, fun x hx => nomatch hx⟩
  case extrapolator => exact ⟨by simp, by norm_num, trivial⟩
  case implicit => exact ⟨newton_default_good, trivial, by norm_num, rfl⟩
  all_goals simp [Solver.Good]

theorem Solver.Sets.good {s s' : Solver R} {l : List String} {v : Val R} (h : Solver.Sets s l v s') (hv : v.Good) :
    s.Good → s'.Good := by
  induction h
  case fixedBase | fixedEv | graggBase | graggEv | graggSmooth | embBase | embEv | embOwn | w1Base | w1Ev | w1D | swBase | swEv
    | swD | swCheck | exBase | exEv | exSeq | imBase | imEv | imAlpha => exact fun hs => hs
  case embCtl h => exact fun hs => h.good hs
  case w1Trim h => exact fun _ => h.good hv
  case swTrim h => exact fun hs => ⟨hs.1, h.good hv⟩
  case swCtl h => exact fun hs => ⟨h.good hs.1, hs.2⟩
  case exCtl h => exact fun hs => ⟨h.good hs.1, hs.2⟩
  case exOwn h => exact fun hs => ⟨hs.1, by cases h <;> first | exact hs.2.1 | exact hv, hs.2.2⟩
  case exNew h => exact fun hs => ⟨hs.1, hs.2.1, h.good⟩
  case exRef ih => exact fun hs => ⟨hs.1, hs.2.1, ih hv hs.2.2⟩
  case imNewton h => exact fun hs => ⟨h.good hs.1 hv, hs.2⟩
  case imNew => exact fun hs => ⟨newton_default_good, hs.2⟩
  case imNewPr h => exact fun hs => ⟨hs.1, h.good, hs.2.2⟩
  case imPr ih => exact fun hs => ⟨hs.1, ih hv hs.2.1, hs.2.2⟩
  case imSteps => exact fun hs => ⟨hs.1, hs.2.1, hv, hs.2.2.2⟩

theorem OutSets.good {o o' : Option Output} {l : List String} {v : Val R} (h : OutSets o l v o') (hv : v.Good)
    (ho : ∀ x ∈ o, x.Good) : ∀ x ∈ o', x.Good := by
  cases h
  case new h =>
    intro x hx
    cases h <;> cases hx <;> first | trivial | (show 5 < 2 ^ 32; norm_num) | (show 10 < 2 ^ 32; norm_num)
  case nested h =>
    intro x hx
    cases hx
    have := ho _ rfl
    cases h <;> first | exact this | exact hv

theorem InitSets.good {s s' : Option (InitState R)} {l : List String} {v : Val R} (h : InitSets s l v s') (hv : v.Good)
    (hs : ∀ x ∈ s, x.x.length < 2 ^ 31) : ∀ x ∈ s', x.x.length < 2 ^ 31 := by
  cases h <;> intro x hx <;> cases hx
  case new => exact Nat.two_pow_pos 31
  case time =>
    have := hs ⟨_, _⟩ rfl
    exact this
  case size t x n =>
    have : n < 2 ^ 31 := by exact_mod_cast hv.2
    simp
    omega
  case var =>
    have := hs ⟨_, _⟩ rfl
    simpa using this

/-- C121. What `setValue` gives can be saved, so that `setValue` can be used again. -/
theorem C121_again (p : Provider R) (hp : p.Good) {v : Val R} (hv : v.Good) {path : List String} {p' : Provider R}
    (h : Provider.Sets (p.map r) path (v.map r) p') : p'.Good := by
  have hv := Val.good_map (r := r) hv
  obtain ⟨g1, g2, g3, g4, g5, g6, g7⟩ := hp
  have g2 := Solver.good_map (r := r) _ g2
  have g3 := Solver.good_map (r := r) _ g3
  have g1 : ∀ m ∈ (p.map r).rhs, m.Good := by
    intro m hm
    cases hq : p.rhs with
    | none => simp [Provider.map, hq] at hm
    | some m0 =>
      simp [Provider.map, hq] at hm
      subst hm
      have := g1 m0 hq
      cases m0 <;> exact this
  have g7 : ∀ s ∈ (p.map r).init, s.x.length < 2 ^ 31 := by
    intro m hm
    cases hq : p.init with
    | none => simp [Provider.map, hq] at hm
    | some m0 =>
      simp [Provider.map, hq] at hm
      subst hm
      have := g7 m0 hq
      simpa [initMap] using this
  have g4 : ∀ o ∈ (p.map r).stats, o.Good := g4
  have g5 : ∀ o ∈ (p.map r).con, o.Good := g5
  have g6 : ∀ o ∈ (p.map r).file, o.Good := g6
  have g2 : (p.map r).solver.Good := g2
  have g3 : (p.map r).ref.Good := g3
  generalize p.map r = q at *
  generalize v.map r = w at *
  cases h
  case newRhs h => exact ⟨fun m hm => by cases h <;> cases hm <;> first | trivial | rfl | (show 10 < 2 ^ 32; norm_num),
    g2, g3, g4, g5, g6, g7⟩
  case rhs m m' k hm h =>
    have := g1 m hm
    refine ⟨fun m hm => ?_, g2, g3, g4, g5, g6, g7⟩
    cases hm
    cases h <;> first | exact this | exact hv
  case newSolver h => exact ⟨g1, h.good, g3, g4, g5, g6, g7⟩
  case solver h => exact ⟨g1, h.good hv g2, g3, g4, g5, g6, g7⟩
  case newRef h => exact ⟨g1, g2, h.good, g4, g5, g6, g7⟩
  case ref h => exact ⟨g1, g2, h.good hv g3, g4, g5, g6, g7⟩
  case time | timing | basename => exact ⟨g1, g2, g3, g4, g5, g6, g7⟩
  case stats h => exact ⟨g1, g2, g3, h.good hv g4, g5, g6, g7⟩
  case con h => exact ⟨g1, g2, g3, g4, h.good hv g5, g6, g7⟩
  case file h => exact ⟨g1, g2, g3, g4, g5, h.good hv g6, g7⟩
  case init h => exact ⟨g1, g2, g3, g4, g5, g6, h.good hv g7⟩

/-- Settings before, paths with values, settings after: each changes one setting and rounds the numbers. -/
inductive SetsAll (r : R → R) : Provider R → List (List String × Val R) → Provider R → Prop
  | nil (p) : SetsAll r p [] p
  | cons (p q p' path v l) : v.Good → Provider.Sets (p.map r) path (v.map r) q → SetsAll r q l p' →
      SetsAll r p ((path, v) :: l) p'

/-- C121. Any number of calls of `setValue`: each of them works and changes what it names. -/
theorem C121_sequence_partial (hF : ∀ x, F.get (F.put x) = .ok (r x)) (l : List (List String × Val R)) :
    ∀ (p p' : Provider R), p.Good → SetsAll r p l p' →
      l.foldlM (fun p s => p.setValue F s.1 s.2) p = .ok p' ∧ p'.Good := by
  induction l with
  | nil => intro p p' hp h; cases h; exact ⟨rfl, hp⟩
  | cons s l ih =>
    intro p p' hp h
    cases h
    case cons q path v hv h1 h2 =>
      rw [List.foldlM_cons, C121_set_partial hF p hp hv h1, bind_ok]
      exact ih q p' (C121_again p hp hv h1) h2

/-! ### Where it fails -/

/-- C121. A path with the name of no parameter: an exception, and nothing is set -/
theorem C121_unknown (p : Provider R) (P : Params) (hP : p.params F = .ok P) (k : String) (hk : k ∉ ["rhs", "solver",
    "reference_solver", "time", "output_timing", "simout_basename", "output_stats", "output_con", "output_file", "init_state"])
    (l : List String) (v : Val R) : ∃ m, p.setValue F (k :: l) v = .error (.exc m) := by
  simp only [List.mem_cons, List.not_mem_nil, or_false, not_or] at hk
  obtain ⟨n1, n2, n3, n4, n5, n6, n7, n8, n9, n10⟩ := hk
  have h0 : findKV k P = none := by
    have hP := hP
    obtain ⟨m, s, rs, t, o, b, a1, a2, a3, i⟩ := p
    cases hS : s.params F with
    | error e => rcases m with _ | m <;> rw [Provider.params] at hP <;> simp only [hS] at hP
                 · cases hP
                 · cases hm : m.params F <;> rw [hm] at hP <;> cases hP
    | ok S =>
      cases hT : rs.params F with
      | error e => rcases m with _ | m <;> rw [Provider.params] at hP <;> simp only [hS, hT] at hP
                   · cases hP
                   · cases hm : m.params F <;> rw [hm] at hP <;> cases hP
      | ok T =>
        rcases m with _ | m
        · rw [Provider.params] at hP
          simp only [hS, hT, bind_ok, Except.ok.injEq] at hP
          subst hP
          simp [find_put, find_nil, Ne.symm n1, Ne.symm n2, Ne.symm n3, Ne.symm n4, Ne.symm n5, Ne.symm n6, Ne.symm n7, Ne.symm n8,
            Ne.symm n9, Ne.symm n10]
        · rw [Provider.params] at hP
          cases hm : m.params F with
          | error e => simp only [hm] at hP; cases hP
          | ok M =>
            simp only [hm, hS, hT, bind_ok, Except.ok.injEq] at hP
            subst hP
            simp [find_put, find_nil, Ne.symm n1, Ne.symm n2, Ne.symm n3, Ne.symm n4, Ne.symm n5, Ne.symm n6, Ne.symm n7,
              Ne.symm n8, Ne.symm n9, Ne.symm n10]
  unfold Provider.setValue
  rw [hP, bind_ok]
  cases l with
  | nil => rw [Params.assign, h0]; exact ⟨_, rfl⟩
  | cons a l => rw [Params.assign, h0]; exact ⟨_, rfl⟩; simp

/-- C121 (false in general). A number that its text does not give back changes when anything else is set. -/
theorem C121_rounding_false (hF : ∀ x, F.get (F.put x) = .ok (r x)) (x : R) (hx : r x ≠ x) :
    ∃ p p' : Provider R, p.Good ∧ p.setValue F ["simout_basename"] (.word "a".toList) = .ok p' ∧ p'.time ≠ p.time := by
  have hg : (⟨none, .null, .null, x, 0, [], none, none, none, none⟩ : Provider R).Good := by
    constructor <;> first | trivial | (intro x hx; cases hx)
  exact ⟨_, _, hg, C121_set_partial hF _ hg (v := .word "a".toList) trivial (.basename _ _), hx⟩

theorem params_solver (hF : ∀ x, F.get (F.put x) = .ok (r x)) (p : Provider R) (hp : p.Good) :
    ∃ P M S, p.params F = .ok P ∧ findKV "rhs" P = some M ∧ asPtr Model.new (Model.set F) M = .ok (p.rhs.map (Model.map r)) ∧
      p.solver.params F = .ok S ∧ findKV "solver" P = some (p.solver.node S) := by
  obtain ⟨S, hS, -, -⟩ := Solver.set_params hF p.solver hp.solver
  obtain ⟨T, hT, -, -⟩ := Solver.set_params hF p.ref hp.ref
  cases hm : p.rhs with
  | none =>
    refine ⟨_, Config.null, S, by rw [Provider.params]; simp only [hm, hS, hT, bind_ok]; rfl, ?_, rfl, hS, ?_⟩ <;>
    simp [find_put]
  | some m =>
    obtain ⟨M, h1, h2⟩ := Model.load_params hF m (hp.rhs m hm)
    refine ⟨_, obj m.id M, S, by rw [Provider.params]; simp only [hm, h1, hS, hT, bind_ok]; rfl, ?_, h2, hS, ?_⟩ <;>
    simp [find_put]

/-- A value with which `setParameters` of the solver fails -/
theorem solver_fails (hF : ∀ x, F.get (F.put x) = .ok (r x)) (p : Provider R) (hp : p.Good) (hne : p.solver ≠ .null)
    {l : List String} {v : Val R} {S S' : Params} {e : Fault} (h1 : p.solver.params F = .ok S)
    (h2 : S.assign l (leaf (v.text F)) = .ok S') (h3 : ∀ y : Solver R, y.id = p.solver.id → y.set F S' = .error e) :
    p.setValue F ("solver" :: l) v = .error e := by
  obtain ⟨P, M, S0, hP, k1, hM, hS, k2⟩ := params_solver hF p hp
  obtain rfl : S = S0 := by rw [h1] at hS; injection hS
  rw [Solver.node_obj _ hne] at k2
  have h4 := Solver.load_of_set p.solver S' _ (fun e => absurd e hne) h3
  rw [Solver.node_obj _ hne] at h4
  unfold Provider.setValue
  rw [hP, bind_ok, assign_nested k2 h2, bind_ok]
  simp only [obj] at h4
  simp [Provider.set, maybeLoad, maybeSet, find_put, k1, hM, h4]

/-- C121 (false in general). To set no error norm calculator is undefined, though the parameter is a list of types with none
in it. -/
theorem C121_enorm_false (hF : ∀ x, F.get (F.put x) = .ok (r x)) (p : Provider R) (hp : p.Good) {k : EmbKind} {b : Base R}
    {c : Ctl R} {ec : Option EvCtl} {e : EmbSet R} (hs : p.solver = .embedded k b c ec e) :
    p.setValue F ["solver", "enorm"] (name "") = .error .ub := by
  refine solver_fails hF p hp (by simp [hs]) (by rw [hs]; rfl)
    (assign_single (x := ptr (fun _ => obj "inf" Params.nil) c.enorm) (by simp [find_put, saveEv, Ctl.save]) _) (fun y hy => ?_)
  rw [hs] at hy
  have h2 := ErrNorm.load_ptr none
  rcases k <;> rcases y with _ | ⟨⟨⟩, _, _⟩ | ⟨⟨⟩, _, _, _, _⟩ | _ | _ | _ | _ | _ <;> simp [Solver.id] at hy <;>
  simp [Solver.set, Solver.setWith, Base.set, Base.params, saveEv, Ctl.load, Ctl.save, maybeLoad, maybeSet, find_put,
    leaf, Tree.text, hF, Val.text, notNull] <;> rfl

/-- C121 (false in general). Once the iteration performer of the Newton solver is removed, to set one is undefined. -/
theorem C121_itperf_false (hF : ∀ x, F.get (F.put x) = .ok (r x)) (p : Provider R) (hp : p.Good) {b : Base R} {m : Nat}
    {ec : Option EvCtl} {a : R} {pr : Solver R} {k : Nat} (hs : p.solver = .implicit b ⟨none, m⟩ ec a pr k false) :
    p.setValue F ["solver", "algsolver", "itperf"] (name "default") = .error .ub := by
  have hg := hp.solver
  rw [hs] at hg
  obtain ⟨hn, hr, hst, -⟩ := hg
  obtain ⟨S, hS, -, hload⟩ := Solver.set_params hF pr hr
  obtain ⟨N, hN⟩ : ∃ N, (Newton.mk none m : Newton R).params F = .ok N := ⟨_, rfl⟩
  have hset : ∀ y : Newton R, y.set F (N.put "itperf" (leaf "default".toList)) = .ok ⟨some ⟨none, none, none⟩, m⟩ := by
    intro y
    cases hN
    have h1 : asPtr (α := Perf R) Perf.new (fun _ p => .ok p) (leaf "default".toList) = .ok (some ⟨none, none, none⟩) := rfl
    have hm : m < 2 ^ 32 := hn.1
    generalize leaf "default".toList = U at h1 ⊢
    simp [Newton.set, load_null, leaf, Tree.text, asUnsigned, unsigned_ok hm, Perf.set, Dir.set, maybeLoad, maybeSet, find_put,
      find_nil, h1]
  have hA : N.assign ["itperf"] (leaf "default".toList) = .ok (N.put "itperf" (leaf "default".toList)) := by
    cases hN
    exact assign_single (x := Config.null) (by simp [find_put, ptr]) _
  have h1 : ∃ Q, p.solver.params F = .ok Q ∧ findKV "algsolver" Q = some (obj "newton" N) ∧
      ∀ y : Base R, y.set F (Q.put "algsolver" (obj "newton" (N.put "itperf" (leaf "default".toList)))) = .ok (b.map r) := by
    refine ⟨_, by rw [hs, Solver.params]; simp only [hS, hN, bind_ok]; rfl, by simp [find_put, saveEv], fun y => ?_⟩
    simp [Base.set, Base.params, maybeLoad, maybeSet, find_put, saveEv, leaf, Tree.text, hF, Base.map]
  obtain ⟨Q, h1, h2, h3⟩ := h1
  refine solver_fails hF p hp (by simp [hs]) h1 (assign_nested h2 hA) (fun y hy => ?_)
  rw [hs] at hy
  change y.set F (Q.put "algsolver" (obj "newton" (N.put "itperf" (leaf "default".toList)))) = _
  have h0 : asPtr Newton.new (Newton.set F) (obj "newton" (N.put "itperf" (leaf "default".toList))) =
      .ok (some ⟨some ⟨none, none, none⟩, m⟩) := by
    rw [load_node _ _ _ _ _ (by decide) (by rfl), hset]
    rfl
  generalize obj "newton" (N.put "itperf" (leaf "default".toList)) = U at h0 h3 ⊢
  rcases y with _ | ⟨⟨⟩, _, _⟩ | ⟨⟨⟩, _, _, _, _⟩ | _ | _ | _ | _ | _ <;> simp [Solver.id] at hy <;>
  simp [Solver.set, Solver.setWith, h3, find_put, maybeSet, maybeLoad, h0, Newton.connect, notNull]

/-- Elements of the parameters of a complete Newton solver -/
theorem newton_found (hF : ∀ x, F.get (F.put x) = .ok (r x)) {n : Newton R} {q : Perf R} (hn : n.Good) (hq : n.itperf = some q) :
    ∃ N T1 T2 T3 T4 T5 T6, n.params F = .ok N ∧
      findKV "itperf" N = some (obj "default" Params.nil) ∧ findKV "regularizer" N = some null ∧
      findKV "max_iterations" N = some T1 ∧ findKV "ddir" N = some T2 ∧ findKV "jacobian" N = some T3 ∧
      findKV "jtrim" N = some T4 ∧ findKV "linsearch" N = some T5 ∧ findKV "err" N = some T6 ∧
      (∃ x, asUnsigned T1 = .ok x) ∧ (∃ x, asPtr DirKind.new DirKind.set T2 = .ok (some x)) ∧
      (∃ x, asPtr JpKind.new (fun _ e => .ok e) T3 = .ok (some x)) ∧ (∃ x, asPtr Trim.new (Trim.set F) T4 = .ok x) ∧
      (∃ x, asPtr Search.new (fun _ e => .ok e) T5 = .ok (some x)) ∧ (∃ x, asPtr Est.new (Est.set F) T6 = .ok x) := by
  obtain ⟨it, lim⟩ := n
  obtain ⟨hl, hg⟩ := hn
  simp only at hl hg hq
  subst hq
  obtain ⟨dd, se, es⟩ := q
  obtain ⟨hs, ⟨k, jj⟩, ⟨jk, t⟩, rfl, hj, hk, ht⟩ := hg _ rfl
  simp only at hj hk hs ht
  subst hj
  obtain ⟨s, rfl⟩ := Option.ne_none_iff_exists'.1 hs
  have h2 := DirKind.load_ptr (some (⟨k, some ⟨jk, t⟩⟩ : Dir R)) (by simpa using hk)
  have h3 := JpKind.load_ptr (some (⟨jk, t⟩ : Jp R))
  have h4 := Search.load_ptr (some s)
  simp only [ptr_some, Option.map_some] at h2 h3 h4
  refine ⟨_, leaf (ofUnsigned lim), k.tree, .node jk.id.toList none, ptr (Trim.tree F) t, obj "simple" Params.nil,
    ptr (fun s => obj "simple" (s.params F)) es, rfl, ?_, ?_, ?_, ?_, ?_, ?_, ?_, ?_, ⟨_, unsigned_ok hl⟩, ⟨_, h2⟩, ⟨_, h3⟩,
    ⟨_, Trim.load_ptr hF t ht⟩, ⟨_, h4⟩, ⟨_, Est.load_ptr hF es⟩⟩ <;>
  simp [find_put, ptr_some]

/-- C121 (false in general). To set no line search is undefined, though the parameter is a list of types with none in it. -/
theorem C121_linsearch_false (hF : ∀ x, F.get (F.put x) = .ok (r x)) {n : Newton R} (hn : n.Good) (hq : n.itperf ≠ none) :
    ∃ N N', n.params F = .ok N ∧ N.assign ["linsearch"] (leaf []) = .ok N' ∧ ∀ y : Newton R, y.set F N' = .error .ub := by
  obtain ⟨q, hq⟩ := Option.ne_none_iff_exists'.1 hq
  obtain ⟨N, T1, T2, T3, T4, T5, T6, h0, f1, f2, f3, f4, f5, f6, f7, f8, ⟨_, g1⟩, ⟨_, g2⟩, ⟨_, g3⟩, ⟨_, g4⟩, -, -⟩ :=
    newton_found hF hn hq
  have hp := Perf.load_ptr (some (⟨none, none, none⟩ : Perf R))
  simp only [ptr_some] at hp
  have hz : asPtr Search.new (fun _ e => .ok e) (leaf []) = .ok none := rfl
  refine ⟨N, _, h0, assign_single f7 _, fun y => ?_⟩
  simp [Newton.set, maybeLoad, maybeSet, find_put, f1, f2, f3, f4, f5, f6, hp, g1, g2, g3, g4, load_null, Perf.set, Dir.set,
    Jp.setTrim, hz, notNull]

/-- C121 (false in general). To set no descent direction for the Newton solver of an implicit solver is undefined. -/
theorem C121_ddir_false (hF : ∀ x, F.get (F.put x) = .ok (r x)) (p : Provider R) (hp : p.Good) {b : Base R} {n : Newton R}
    {ec : Option EvCtl} {a : R} {pr : Solver R} {k : Nat} (hs : p.solver = .implicit b n ec a pr k false)
    (hq : n.itperf ≠ none) : p.setValue F ["solver", "algsolver", "ddir"] (name "") = .error .ub := by
  have hg := hp.solver
  rw [hs] at hg
  obtain ⟨hn, hr, hst, -⟩ := hg
  obtain ⟨S, hS, -, hload⟩ := Solver.set_params hF pr hr
  obtain ⟨q, hq⟩ := Option.ne_none_iff_exists'.1 hq
  obtain ⟨N, T1, T2, T3, T4, T5, T6, hN, f1, f2, f3, f4, f5, f6, f7, f8, ⟨m, g1⟩, -, -, -, ⟨x5, g5⟩, ⟨x6, g6⟩⟩ :=
    newton_found hF hn hq
  have hpf := Perf.load_ptr (some (⟨none, none, none⟩ : Perf R))
  simp only [ptr_some] at hpf
  have hz : asPtr DirKind.new DirKind.set (leaf []) = .ok none := rfl
  have hset : ∀ y : Newton R, y.set F (N.put "ddir" (leaf [])) = .ok ⟨some ⟨none, some x5, x6⟩, m⟩ := by
    intro y
    simp [Newton.set, maybeLoad, maybeSet, find_put, f1, f2, f3, f5, f6, f7, f8, hpf, g1, g5, g6, load_null, Perf.set, Dir.set,
      hz, notNull]
  have h1 : ∃ Q, p.solver.params F = .ok Q ∧ findKV "algsolver" Q = some (obj "newton" N) ∧
      ∀ y : Base R, y.set F (Q.put "algsolver" (obj "newton" (N.put "ddir" (leaf [])))) = .ok (b.map r) := by
    refine ⟨_, by rw [hs, Solver.params]; simp only [hS, hN, bind_ok]; rfl, by simp [find_put, saveEv], fun y => ?_⟩
    simp [Base.set, Base.params, maybeLoad, maybeSet, find_put, saveEv, leaf, Tree.text, hF, Base.map]
  obtain ⟨Q, h1, h2, h3⟩ := h1
  refine solver_fails hF p hp (by simp [hs]) h1 (assign_nested h2 (assign_single f4 _)) (fun y hy => ?_)
  rw [hs] at hy
  change y.set F (Q.put "algsolver" (obj "newton" (N.put "ddir" (leaf [])))) = _
  have h0 : asPtr Newton.new (Newton.set F) (obj "newton" (N.put "ddir" (leaf []))) =
      .ok (some ⟨some ⟨none, some x5, x6⟩, m⟩) := by
    rw [load_node _ _ _ _ _ (by decide) (by rfl), hset]
    rfl
  generalize obj "newton" (N.put "ddir" (leaf [])) = U at h0 h3 ⊢
  rcases y with _ | ⟨⟨⟩, _, _⟩ | ⟨⟨⟩, _, _, _, _⟩ | _ | _ | _ | _ | _ <;> simp [Solver.id] at hy <;>
  simp [Solver.set, Solver.setWith, h3, find_put, maybeSet, maybeLoad, h0, Newton.connect, notNull]

end

/-! ### Examples -/

/-- The settings of `sample` are such that they can be saved. -/
theorem sample_good : sample.Good :=
  ⟨by simp [sample, Model.Good],
    ⟨by simp [Ctl.init], by norm_num, ⟨by norm_num, by
      intro p hp
      cases hp
      refine ⟨by simp, _, _, rfl, rfl, by simp [DirKind.Good], ?_⟩
      intro t ht
      cases ht
      simp [Trim.Good]⟩, trivial, by norm_num, rfl⟩, trivial, by simp [sample, Output.Good], by simp [sample],
    by simp [sample, Output.Good], by simp [sample]⟩

/-- The direction of the Newton solver of the implicit solver of the extrapolator: the Jacobian provider and its trimmer stay -/
example : sample.setValue codeFmt ["solver", "reference_solver", "algsolver", "ddir"] (name "hart") = .ok
    { sample with solver := (
        .extrapolator ⟨1 / 8, 0⟩ .init none ⟨true, false, 6⟩ (some .harmonic)
          (.implicit ⟨1 / 4, 0⟩ ⟨some ⟨some ⟨.hart, some ⟨.sparse, some (.width 3)⟩⟩, some .simple, none⟩, 20⟩ none (1 / 2)
            (.fixed .euler .init none) 2 false)) } :=
  C121_set_partial codeFmt_ok sample sample_good (v := name "hart") trivial
    (.solver _ _ _ _ (.exRef _ _ _ _ _ _ _ _ _ (.imNewton _ _ _ _ _ _ _ _ _ _ (.ddir _ _ _ _ _ _ _ .hart))))

/-- A third variable for the initial state, then its value -/
example : ([(["init_state", "size"], .int 3), (["init_state", "x2"], .num 7)] : List (List String × Val ℚ)).foldlM
    (fun p s => p.setValue codeFmt s.1 s.2) sample = .ok { sample with init := some ⟨1, [2, 3, 7]⟩ } := by
  have h1 : Provider.Sets (sample.map id) ["init_state", "size"] (Val.map id (.int 3))
      { sample with init := some ⟨1, [2, 3, 0]⟩ } := .init _ _ _ _ (.size _ _ 3)
  have h2 : Provider.Sets (({ sample with init := some ⟨1, [2, 3, 0]⟩ } : Provider ℚ).map id) ["init_state", "x2"]
      (Val.map id (.num 7)) { sample with init := some ⟨1, [2, 3, 7]⟩ } :=
    .init _ _ _ _ (.var _ _ 2 _ (by simp [initMap]))
  exact (C121_sequence_partial codeFmt_ok _ _ _ sample_good (.cons _ _ _ _ (.int 3) _ ⟨by norm_num, by norm_num⟩ h1
    (.cons _ _ _ _ (.num 7) _ trivial h2 (.nil _)))).1

/-- An embedded solver without error norm calculator -/
example : ({ sample with solver := .embedded .dopri45 .init .init none ⟨true, false, 0, false⟩ } : Provider ℚ).setValue codeFmt
    ["solver", "enorm"] (name "") = .error .ub :=
  C121_enorm_false codeFmt_ok _ ⟨sample_good.1, by simp [Solver.Good, Ctl.init], sample_good.3, sample_good.4, sample_good.5,
    sample_good.6, sample_good.7⟩ rfl

/-- No descent direction for the implicit solver that comes with the default Newton solver -/
example : ({ sample with solver := (.implicit ⟨1 / 4, 0⟩
    ⟨some ⟨some ⟨.hart, some ⟨.sparse, none⟩⟩, some .simple, none⟩, 20⟩ none (1 / 2) .null 2 false) } : Provider ℚ).setValue codeFmt ["solver", "algsolver", "ddir"] (name "") = .error .ub :=
  C121_ddir_false codeFmt_ok _ ⟨sample_good.1, ⟨⟨by norm_num, by
    intro p hp
    cases hp
    exact ⟨by simp, _, _, rfl, rfl, by simp [DirKind.Good], by simp⟩⟩, trivial, by norm_num, rfl⟩, sample_good.3, sample_good.4,
    sample_good.5, sample_good.6, sample_good.7⟩ rfl (by simp)

end Verif.Config
