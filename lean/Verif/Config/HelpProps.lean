import Verif.Config.HelpModel
import Verif.Config.Props

/-! # C120: help on parameters -/

set_option linter.unusedSectionVars false
set_option linter.unnecessarySeqFocus false

namespace Verif.Config

open Verif.Infra Verif.Driver Verif.TestModels Verif.Res

/-- The parameters without help: type identifier of the object, and names -/
def undocumentedNames : List (String × List String) :=
  [("extrapolator", ["h_init", "h_min", "enorm", "stepsizectl", "eventctl", "symmetric", "max_stages"]),
   ("dopri_45", ["disable_error_check", "force_error_calc", "h_after_switch", "mode"]),
   ("dopri_56", ["disable_error_check", "force_error_calc", "h_after_switch", "mode"]),
   ("dopri_78", ["disable_error_check", "force_error_calc", "h_after_switch", "mode"]),
   ("simple", ["tolerance", "insurance", "inc_min_factor", "inc_max_factor", "dec_max_factor", "max_threshold",
     "abs_tol", "rel_tol", "abs_max_threshold", "rel_max_threshold"]),
   ("width", ["width"]),
   ("threshold", ["threshold"])]

/-- Has the object with the given type identifier no help on the parameter? All parameters of the initial state have none. -/
def undocumented (t : Text) (k : String) : Prop :=
  t = "specified".toList ∨ ∃ e ∈ undocumentedNames, t = e.1.toList ∧ k ∈ e.2

/-- Every name on the path has help in its object; `t` is the type identifier of the object with parameters `P` -/
def documented : Text → Params → List String → Prop
  | _, _, [] => True
  | t, P, k :: l => ¬ undocumented t k ∧
    match findKV k P with
    | some (.node t' (some Q)) => documented t' Q l
    | _ => True

/-- Help is there exactly for the parameters that have it -/
def Agree (t : Text) (P : Params) (H : Helps) : Prop :=
  ∀ path, H.has path = true ↔ P.has path = true ∧ documented t P path

theorem hfind_put (H : Helps) (k a : String) (v : Help) :
    findKV k (H.put a v) = if a = k then some v else findKV k H := by
  unfold Helps.put
  induction H with
  | nil => simp [insertKV, findKV]
  | cons e H ih =>
    obtain ⟨x, y⟩ := e
    rw [insertKV]
    split
    · subst_vars
      rw [findKV, findKV]
      split <;> simp_all
    · rw [findKV, ih, findKV]
      split <;> split <;> simp_all

instance (t : Text) (k : String) : Decidable (undocumented t k) := by unfold undocumented; infer_instance

theorem agree_nil (t : Text) : Agree t Params.nil Helps.nil := by
  intro path
  rcases path with _ | ⟨k, _ | ⟨k', l⟩⟩ <;> simp [Helps.has, Params.has, Params.nil, Helps.nil, findKV]

/-- The help on an object with the given type identifier and parameters -/
def AgreeTree (v : Tree) (q : Help) : Prop := match v, q with | .node s n, .node Q => Agree s (n.getD []) Q

/-- The steps of a composition that succeeds -/
theorem step_inv {α β : Type} {x : Res α} {f : α → Res β} {r : β} (h : (x >>= f) = .ok r) :
    ∃ a, x = .ok a ∧ f a = .ok r := by
  cases x with
  | error e => cases h
  | ok a => exact ⟨a, rfl, h⟩

/-- A parameter with help is added -/
theorem agree_put {t : Text} {P : Params} {H : Helps} (h : Agree t P H) {k : String} (hu : ¬ undocumented t k) {v : Tree}
    {q : Help} (hv : AgreeTree v q) : Agree t (P.put k v) (H.put k q) := by
  obtain ⟨s, n⟩ := v
  obtain ⟨Q⟩ := q
  change Agree s (n.getD []) Q at hv
  intro path
  have hp := h path
  rcases path with _ | ⟨a, _ | ⟨b, l⟩⟩
  · simp [Helps.has, Params.has]
  · by_cases ha : k = a
    · subst ha
      cases n <;> simp [Helps.has, Params.has, documented, find_put, hfind_put, hu]
    · simpa only [Helps.has, Params.has, documented, find_put, hfind_put, if_neg ha] using hp
  · by_cases ha : k = a
    · subst ha
      have e := hv (b :: l)
      cases n with
      | none =>
        have hn : ¬ Params.has [] (b :: l) = true := by cases l <;> simp [Params.has, findKV]
        rw [Option.getD_none] at e
        simp only [Helps.has, Params.has, find_put, hfind_put, if_true, e, hn, false_and, Bool.false_eq_true]
      | some N =>
        rw [Option.getD_some] at e
        simp only [Helps.has, Params.has, find_put, hfind_put, if_true, e, documented, hu, not_false_eq_true, true_and]
    · simpa only [Helps.has, Params.has, documented, find_put, hfind_put, if_neg ha] using hp

/-- A parameter without help is added -/
theorem agree_skip {t : Text} {P : Params} {H : Helps} (h : Agree t P H) {k : String} (hu : undocumented t k) (v : Tree) :
    Agree t (P.put k v) H := by
  have h0 : findKV k H = none := by
    have := h [k]
    simpa [Helps.has, documented, hu] using this
  intro path
  have hp := h path
  rcases path with _ | ⟨a, l⟩
  · simp [Helps.has, Params.has]
  · by_cases ha : k = a
    · subst ha
      cases l <;> simp [Helps.has, documented, hu, h0]
    · cases l <;> simpa only [Helps.has, Params.has, documented, find_put, if_neg ha] using hp

theorem agree_leaf (t : Text) : AgreeTree (leaf t) text := agree_nil t

theorem agree_null : AgreeTree null text := agree_nil _

theorem agree_none (t : Text) : AgreeTree (.node t none) text := agree_nil t

theorem agree_obj {id : String} {P : Params} {H : Helps} (h : Agree id.toList P H) : AgreeTree (obj id P) (.node H) := h

theorem agree_ptr {α : Type} {f : α → Tree} {g : α → Helps} (h : ∀ x, AgreeTree (f x) (.node (g x))) (o : Option α) :
    AgreeTree (ptr f o) (nestedHelp g o) := by
  cases o with
  | none => exact agree_nil _
  | some x => exact h x

section
variable {R : Type} [Field R] {F : Fmt R}

theorem StepCtl.agree (c : StepCtl R) : AgreeTree (obj "simple" (c.params F)) (.node (noHelp c)) :=
  agree_obj (agree_skip (agree_skip (agree_skip (agree_skip (agree_skip (agree_skip (agree_nil _) (by decide) _) (by decide) _)
    (by decide) _) (by decide) _) (by decide) _) (by decide) _)

theorem Est.agree (e : Est R) : AgreeTree (obj "simple" (e.params F)) (.node (noHelp e)) :=
  agree_obj (agree_skip (agree_skip (agree_skip (agree_skip (agree_nil _) (by decide) _)
    (by decide) _) (by decide) _) (by decide) _)

theorem Trim.agree (t : Trim R) : AgreeTree (t.tree F) (.node (noHelp t)) := by
  cases t
  · exact agree_obj (agree_skip (agree_nil _) (by decide) _)
  · exact agree_obj (agree_skip (agree_nil _) (by decide) _)

theorem DirKind.agree (d : DirKind) : AgreeTree d.tree (.node d.help) := by
  cases d
  case lazy n => exact agree_obj (agree_put (agree_nil _) (by decide) (agree_leaf _))
  all_goals exact agree_obj (agree_nil _)

theorem Newton.agree (n : Newton R) {P : Params} (hP : n.params F = .ok P) : Agree "newton".toList P n.help := by
  obtain ⟨p, m⟩ := n
  unfold Newton.params at hP
  unfold Newton.help
  have h1 := agree_put (agree_put (agree_put (agree_nil "newton".toList) (k := "itperf") (by decide)
    (agree_ptr (f := fun _ : Perf R => obj "default" Params.nil) (g := noHelp) (fun _ => agree_obj (agree_nil _)) p))
    (k := "regularizer") (by decide) agree_null) (k := "max_iterations") (by decide) (agree_leaf (ofUnsigned m))
  cases p with
  | none => cases hP; exact h1
  | some p =>
    obtain ⟨d, s, e⟩ := p
    dsimp only at hP ⊢
    have h2 := agree_put h1 (k := "ddir") (by decide)
      (agree_ptr (f := fun d : Dir R => d.kind.tree) (g := fun d => d.kind.help) (fun d => d.kind.agree) d)
    have h3 : ∀ {P' : Params} {H' : Helps}, Agree "newton".toList P' H' → Agree "newton".toList
        ((P'.put "linsearch" (ptr (fun _ => obj "simple" Params.nil) s)).put "err"
          (ptr (fun e => obj "simple" (e.params F)) e))
        ((H'.put "linsearch" (nestedHelp noHelp s)).put "err" (nestedHelp noHelp e)) := fun h =>
      agree_put (agree_put h (by decide) (agree_ptr (fun _ => agree_obj (agree_nil _)) s)) (by decide)
        (agree_ptr (fun e => Est.agree e) e)
    cases d with
    | none =>
      simp only [bind_ok] at hP
      cases hP
      exact h3 h2
    | some d =>
      obtain ⟨k, j⟩ := d
      cases j with
      | none => cases hP
      | some j =>
        simp only [bind_ok] at hP
        cases hP
        exact h3 (agree_put (agree_put h2 (k := "jacobian") (by decide)
          (agree_none j.kind.id.toList)) (k := "jtrim") (by decide)
          (agree_ptr (fun t => Trim.agree t) j.trimmer))

theorem agree_base {t : Text} (h1 : ¬ undocumented t "h_init") (h2 : ¬ undocumented t "h_min") (b : Base R) :
    Agree t (b.params F) baseHelp :=
  agree_put (agree_put (agree_nil _) h1 (agree_leaf _)) h2 (agree_leaf _)

theorem agree_ctl {t : Text} {P : Params} {H : Helps} (h : Agree t P H) (h1 : ¬ undocumented t "enorm")
    (h2 : ¬ undocumented t "stepsizectl") (c : Ctl R) : Agree t (c.save F P) (c.addHelp H) :=
  agree_put (agree_put h h1 (agree_ptr (fun _ => agree_obj (agree_nil _)) _)) h2 (agree_ptr (fun s => StepCtl.agree s) _)

theorem agree_ev {t : Text} {P : Params} {H : Helps} (h : Agree t P H) (h1 : ¬ undocumented t "eventctl")
    (e : Option EvCtl) : Agree t (saveEv e P) (evHelp e H) :=
  agree_put h h1 (agree_ptr (fun _ => agree_obj (agree_nil _)) _)

theorem agree_trim {t : Text} {P : Params} {H : Helps} (h : Agree t P H) (h1 : ¬ undocumented t "jtrim")
    (e : Option (Trim R)) : Agree t (saveTrim F e P) (trimHelp e H) :=
  agree_put h h1 (agree_ptr (fun t => Trim.agree t) _)

theorem Solver.agree (s : Solver R) : ∀ {P : Params}, s.params F = .ok P → AgreeTree (s.node P) (.node s.help) := by
  induction s with
  | null => intro P _; exact agree_nil _
  | fixed k b ec =>
    intro P hP
    cases hP
    cases k
    · exact agree_obj (id := "euler") (agree_ev (agree_base (by decide) (by decide) b) (by decide) ec)
    · exact agree_obj (id := "rk4") (agree_ev (agree_base (by decide) (by decide) b) (by decide) ec)
  | embedded k b c ec s =>
    intro P hP
    cases hP
    cases k
    · exact agree_obj (id := "dopri_45") (agree_skip (agree_skip (agree_skip (agree_skip (agree_ev (agree_ctl
        (agree_base (by decide) (by decide) b) (by decide) (by decide) c) (by decide) ec) (by decide) _) (by decide) _)
        (by decide) _) (by decide) _)
    · exact agree_obj (id := "dopri_56") (agree_skip (agree_skip (agree_skip (agree_skip (agree_ev (agree_ctl
        (agree_base (by decide) (by decide) b) (by decide) (by decide) c) (by decide) ec) (by decide) _) (by decide) _)
        (by decide) _) (by decide) _)
    · exact agree_obj (id := "dopri_78") (agree_skip (agree_skip (agree_skip (agree_skip (agree_ev (agree_ctl
        (agree_base (by decide) (by decide) b) (by decide) (by decide) c) (by decide) ec) (by decide) _) (by decide) _)
        (by decide) _) (by decide) _)
  | w1 b t ec d =>
    intro P hP
    cases hP
    exact agree_obj (id := "rosenbrock_w1") (agree_put (agree_ev (agree_trim (agree_base (by decide) (by decide) b) (by decide) t) (by decide) ec)
      (by decide) (agree_leaf _))
  | sw24 b t c ec d e =>
    intro P hP
    cases hP
    exact agree_obj (id := "rosenbrock_sw2_4") (agree_put (agree_put (agree_ev (agree_ctl (agree_trim (agree_base (by decide) (by decide) b) (by decide) t)
      (by decide) (by decide) c) (by decide) ec) (by decide) (agree_leaf _)) (by decide) (agree_leaf _))
  | gragg b ec s =>
    intro P hP
    cases hP
    exact agree_obj (id := "gragg") (agree_put (agree_ev (agree_base (by decide) (by decide) b) (by decide) ec) (by decide) (agree_leaf _))
  | extrapolator b c ec s seq ref ih =>
    intro P hP
    unfold Solver.params at hP
    obtain ⟨Q, hQ, hP⟩ := step_inv hP
    cases hP
    have h0 : Agree "extrapolator".toList (saveEv ec (c.save F (b.params F))) Helps.nil :=
      agree_skip (agree_skip (agree_skip (agree_skip (agree_skip (agree_nil _) (by decide) _) (by decide) _) (by decide) _)
        (by decide) _) (by decide) _
    exact agree_obj (id := "extrapolator") (agree_put (agree_put (agree_skip (agree_put (agree_skip h0 (by decide) _) (by decide) (agree_leaf _))
      (by decide) _) (by decide) (agree_ptr (fun _ => agree_none _) seq)) (by decide) (ih hQ))
  | implicit b n ec alpha pr steps re ih =>
    intro P hP
    unfold Solver.params at hP
    obtain ⟨N, hN, hP⟩ := step_inv hP
    obtain ⟨Q, hQ, hP⟩ := step_inv hP
    cases hP
    exact agree_obj (id := "i_euler") (agree_put (agree_put (agree_put (agree_put (agree_ev (agree_put (agree_base (by decide) (by decide) b)
      (by decide) (agree_obj (n.agree hN))) (by decide) ec) (by decide) (agree_leaf _)) (by decide) (ih hQ)) (by decide)
      (agree_leaf _)) (by decide) agree_null)

theorem Model.agree (m : Model R) {P : Params} (hP : m.params F = .ok P) : AgreeTree (obj m.id P) (.node m.help) := by
  cases m with
  | oscillator c f =>
    cases hP
    exact agree_obj (id := "oscillator") (agree_put (agree_put (agree_nil _) (by decide) (agree_leaf _)) (by decide) (agree_leaf _))
  | coupled n c0 c2 f =>
    cases hP
    exact agree_obj (id := "coupled_nl_osc") (agree_put (agree_put (agree_put (agree_put (agree_nil _) (by decide) (agree_leaf _)) (by decide) (agree_leaf _))
      (by decide) (agree_leaf _)) (by decide) (agree_leaf _))
  | stiff a =>
    cases hP
    exact agree_obj (id := "stiff_1d") (agree_put (agree_nil _) (by decide) (agree_leaf _))
  | sliding k mass f0 v0 F1 F2 omega =>
    unfold Model.params at hP
    obtain ⟨s, hs, hP⟩ := step_inv hP
    cases hP
    exact agree_obj (id := "sliding_point") (agree_put (agree_put (agree_put (agree_put (agree_put (agree_put (agree_put (agree_nil _)
      (by decide) (agree_leaf _)) (by decide) (agree_leaf _)) (by decide) (agree_leaf _)) (by decide) (agree_leaf _))
      (by decide) (agree_leaf _)) (by decide) (agree_leaf _)) (by decide) (agree_leaf _))
  | ball g r s st =>
    cases hP
    exact agree_obj (id := "bouncing_ball") (agree_put (agree_put (agree_put (agree_nil _) (by decide) (agree_leaf _)) (by decide) (agree_leaf _))
      (by decide) (agree_leaf _))

theorem Output.agree (o : Output) : AgreeTree (obj o.id o.params) (.node o.help) := by
  cases o
  · exact agree_obj (id := "stats_full") (agree_put (agree_nil _) (by decide) (agree_leaf _))
  · exact agree_obj (id := "con_general") (agree_put (agree_nil _) (by decide) (agree_leaf _))
  · exact agree_obj (id := "con_solution") (agree_put (agree_put (agree_nil _) (by decide) (agree_leaf _)) (by decide) (agree_leaf _))
  · exact agree_obj (id := "con_solution_columnwise") (agree_put (agree_put (agree_nil _) (by decide) (agree_leaf _)) (by decide) (agree_leaf _))

theorem init_agree (s : InitState R) : AgreeTree (obj "specified" (initParams F s)) (.node (noHelp s)) := by
  refine agree_obj ?_
  have hu : ∀ k, undocumented "specified".toList k := fun k => Or.inl rfl
  have key : ∀ (l : List R) (i : Nat) (P : Params), Agree "specified".toList P Helps.nil →
      Agree "specified".toList (initVars F i l P) Helps.nil := by
    intro l
    induction l with
    | nil => exact fun _ _ h => h
    | cons x l ih => exact fun i P h => ih _ _ (agree_skip h (hu _) _)
  exact key _ _ _ (agree_skip (agree_skip (agree_nil _) (hu _) _) (hu _) _)

/-- C120. For every configuration and every path: there is help at the path exactly if there is a parameter at the path and
none of the names on the path is one of those without help. -/
theorem C120_help_partial (p : Provider R) {P : Params} (hP : p.params F = .ok P) (path : List String) :
    p.help.has path = true ↔ P.has path = true ∧ documented [] P path := by
  refine (?_ : Agree [] P p.help) path
  obtain ⟨m, s, rs, t, o, b, a1, a2, a3, i⟩ := p
  unfold Provider.params at hP
  obtain ⟨M, hM, hP⟩ := step_inv hP
  obtain ⟨S, hS, hP⟩ := step_inv hP
  obtain ⟨T, hT, hP⟩ := step_inv hP
  cases hP
  have hm : AgreeTree M (nestedHelp Model.help m) := by
    cases m with
    | none => cases hM; exact agree_null
    | some m =>
      obtain ⟨Q, hQ, hM⟩ := step_inv hM
      cases hM
      exact m.agree hQ
  exact agree_put (agree_put (agree_put (agree_put (agree_put (agree_put (agree_put (agree_put (agree_put (agree_put (agree_nil _)
    (by decide) hm) (by decide) (s.agree hS)) (by decide) (rs.agree hT)) (by decide) (agree_leaf _)) (by decide) (agree_leaf _))
    (by decide) (agree_leaf _)) (by decide) (agree_ptr (fun o => Output.agree o) a1)) (by decide)
    (agree_ptr (fun o => Output.agree o) a2)) (by decide) (agree_ptr (fun o => Output.agree o) a3)) (by decide)
    (agree_ptr (fun s => init_agree s) i)

/-- C120 is false: with an extrapolator there is no help on the initial step size, which is a parameter of every solver, and with
an embedded solver none on the mode and on the tolerance. -/
theorem C120_false (b : Base R) (c : Ctl R) (ec : Option EvCtl) (s : ExSet) (q : Option Seq) (ref : Solver R) (k : EmbKind)
    (st : StepCtl R) (e : EmbSet R) (x : Provider R) :
    (∀ P, ({ x with solver := .extrapolator b c ec s q ref } : Provider R).params F = .ok P →
      P.has ["solver", "h_init"] = true ∧
      ({ x with solver := .extrapolator b c ec s q ref } : Provider R).help.has ["solver", "h_init"] = false) ∧
    (∀ P, ({ x with solver := .embedded k b ⟨some .inf, some st⟩ ec e } : Provider R).params F = .ok P →
      P.has ["solver", "mode"] = true ∧ P.has ["solver", "stepsizectl", "tolerance"] = true ∧
      ({ x with solver := .embedded k b ⟨some .inf, some st⟩ ec e } : Provider R).help.has ["solver", "mode"] = false ∧
      ({ x with solver := .embedded k b ⟨some .inf, some st⟩ ec e } : Provider R).help.has
        ["solver", "stepsizectl", "tolerance"] = false) := by
  constructor
  · intro P hP
    unfold Provider.params at hP
    obtain ⟨M, hM, hP⟩ := step_inv hP
    obtain ⟨S, hS, hP⟩ := step_inv hP
    obtain ⟨T, hT, hP⟩ := step_inv hP
    unfold Solver.params at hS
    obtain ⟨Q, hQ, hS⟩ := step_inv hS
    cases hS
    cases hP
    constructor
    · simp [Params.has, find_put, Solver.node, obj, saveEv, Ctl.save, Base.params]
    · simp [Helps.has, hfind_put, Provider.help, Solver.help, Helps.nil, findKV]
  · intro P hP
    unfold Provider.params at hP
    obtain ⟨M, hM, hP⟩ := step_inv hP
    obtain ⟨S, hS, hP⟩ := step_inv hP
    obtain ⟨T, hT, hP⟩ := step_inv hP
    cases hS
    cases hP
    refine ⟨?_, ?_, ?_, ?_⟩
    · simp [Params.has, find_put, Solver.node, obj]
    · simp [Params.has, find_put, Solver.node, obj, saveEv, Ctl.save, ptr, StepCtl.params]
    · simp [Helps.has, hfind_put, Provider.help, Solver.help, evHelp, Ctl.addHelp, baseHelp, Helps.nil, findKV]
    · simp [Helps.has, hfind_put, Provider.help, Solver.help, evHelp, Ctl.addHelp, nestedHelp, noHelp, Helps.nil, findKV]

end

/-! ### Examples -/

/-- In the sample, there is help on the initial step size of the predictor of the reference solver of the extrapolator, and none
on that of the extrapolator. -/
example : ∃ P, sample.params codeFmt = .ok P ∧ sample.help.has ["solver", "reference_solver", "predictor", "h_init"] = true ∧
    P.has ["solver", "h_init"] = true ∧ sample.help.has ["solver", "h_init"] = false ∧
    documented [] P ["solver", "reference_solver", "predictor", "h_init"] := by
  obtain ⟨P, hP⟩ : ∃ P, sample.params codeFmt = .ok P := ⟨_, rfl⟩
  have h1 : sample.help.has ["solver", "reference_solver", "predictor", "h_init"] = true := by decide
  exact ⟨P, hP, h1, ((C120_false (R := ℚ) ⟨1 / 8, 0⟩ .init none ⟨true, false, 6⟩ (some .harmonic) _ .dopri45 .init
    ⟨false, false, 0, false⟩ sample).1 P hP).1, by decide, ((C120_help_partial sample hP _).1 h1).2⟩

end Verif.Config
