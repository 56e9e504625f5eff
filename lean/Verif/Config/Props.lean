import Verif.Config.RoundTrip
import Mathlib.Data.Rat.Encodable

/-
C117: saving and loading settings.
-/

set_option linter.unusedSectionVars false
set_option linter.unnecessarySeqFocus false

namespace Verif.Config

open Verif.Infra Verif.Driver Verif.TestModels Verif.Res

section
variable {R : Type} [Field R] {F : Fmt R} {r : R → R}

/-- C117. Let the text of every number be accepted and read as `r` of the number. For settings that can be saved: `parameters`
of the configuration works, and what it returns, given to `setParameters` of a configuration with any settings, gives a
configuration with exactly the saved settings, numbers replaced by `r` of them. -/
theorem C117_roundtrip_partial (hF : ∀ x, F.get (F.put x) = .ok (r x)) (p : Provider R) (hp : p.Good) :
    ∃ P, p.params F = .ok P ∧ ∀ q : Provider R, q.set F P = .ok (p.map r) := by
  obtain ⟨m, s, rs, t, o, b, a1, a2, a3, i⟩ := p
  obtain ⟨h1, h2, h3, h4, h5, h6, h7⟩ := hp
  obtain ⟨S, hS, -, hSl⟩ := Solver.set_params hF s h2
  obtain ⟨T, hT, -, hTl⟩ := Solver.set_params hF rs h3
  have e4 := Output.load_ptr a1 h4
  have e5 := Output.load_ptr a2 h5
  have e6 := Output.load_ptr a3 h6
  have e7 := init_load_ptr hF i h7
  cases m with
  | none =>
    refine ⟨_, by rw [Provider.params]; simp only [hS, hT, bind_ok]; rfl, fun q => ?_⟩
    simp [Provider.set, maybeLoad, maybeSet, find_put, leaf, Tree.text, hF, hSl, hTl, e4, e5, e6, e7, asText,
      load_null, Provider.map]
  | some m =>
    obtain ⟨M, hM, hMl⟩ := Model.load_params hF m (h1 m rfl)
    refine ⟨_, by rw [Provider.params]; simp only [hM, hS, hT, bind_ok]; rfl, fun q => ?_⟩
    simp [Provider.set, maybeLoad, maybeSet, find_put, leaf, Tree.text, hF, hSl, hTl, hMl, e4, e5, e6, e7, asText,
      Provider.map]

/-- C117. The same for a solver of any class, and another one of the same class with any settings -/
theorem C117_solver_partial (hF : ∀ x, F.get (F.put x) = .ok (r x)) (s : Solver R) (hs : s.Good) :
    ∃ P, s.params F = .ok P ∧ ∀ y : Solver R, y.id = s.id → y.set F P = .ok (s.map r) := by
  obtain ⟨P, h1, h2, -⟩ := Solver.set_params hF s hs
  exact ⟨P, h1, h2⟩

/-- C117. `setParameters` with a set that has none of the parameters of the solver changes nothing: parameters that are not
given keep their values, and parameters with unknown names are ignored without notice. -/
theorem C117_frame (s : Solver R) (P Q : Params) (hQ : s.params F = .ok Q)
    (h : ∀ k, findKV k Q ≠ none → findKV k P = none) : s.set F P = .ok s := by
  cases s with
  | null => rfl
  | fixed k b ec =>
    cases hQ
    simp [Solver.set, Solver.setWith, Base.set, loadEv, maybeLoad, maybeSet, h "h_init" (by simp [Base.params, saveEv, find_put]),
      h "h_min" (by simp [Base.params, saveEv, find_put]), h "eventctl" (by simp [Base.params, saveEv, find_put])]
  | embedded k b c ec e =>
    cases hQ
    simp [Solver.set, Solver.setWith, Base.set, loadEv, Ctl.load, maybeLoad, maybeSet,
      h "h_init" (by simp [Base.params, Ctl.save, saveEv, find_put]), h "h_min" (by simp [Base.params, Ctl.save, saveEv, find_put]),
      h "eventctl" (by simp [Base.params, saveEv, find_put]), h "enorm" (by simp [Base.params, Ctl.save, saveEv, find_put]),
      h "stepsizectl" (by simp [Base.params, Ctl.save, saveEv, find_put]), h "disable_error_check" (by simp [find_put]),
      h "force_error_calc" (by simp [find_put]), h "h_after_switch" (by simp [find_put]), h "mode" (by simp [find_put])]
  | w1 b t ec d =>
    cases hQ
    simp [Solver.set, Solver.setWith, Base.set, loadEv, loadTrim, maybeLoad, maybeSet,
      h "h_init" (by simp [Base.params, saveTrim, saveEv, find_put]), h "h_min" (by simp [Base.params, saveTrim, saveEv, find_put]),
      h "eventctl" (by simp [Base.params, saveEv, find_put]), h "jtrim" (by simp [saveTrim, saveEv, find_put]),
      h "d" (by simp [find_put])]
  | sw24 b t c ec d e =>
    cases hQ
    simp [Solver.set, Solver.setWith, Base.set, loadEv, loadTrim, Ctl.load, maybeLoad, maybeSet,
      h "h_init" (by simp [Base.params, Ctl.save, saveTrim, saveEv, find_put]),
      h "h_min" (by simp [Base.params, Ctl.save, saveTrim, saveEv, find_put]),
      h "eventctl" (by simp [Base.params, saveEv, find_put]), h "jtrim" (by simp [Ctl.save, saveTrim, saveEv, find_put]),
      h "enorm" (by simp [Base.params, Ctl.save, saveEv, find_put]),
      h "stepsizectl" (by simp [Base.params, Ctl.save, saveEv, find_put]), h "disable_error_check" (by simp [find_put]),
      h "d" (by simp [find_put])]
  | gragg b ec sm =>
    cases hQ
    simp [Solver.set, Solver.setWith, Base.set, loadEv, maybeLoad, maybeSet, h "h_init" (by simp [Base.params, saveEv, find_put]),
      h "h_min" (by simp [Base.params, saveEv, find_put]), h "eventctl" (by simp [Base.params, saveEv, find_put]),
      h "smooth" (by simp [find_put])]
  | extrapolator b c ec e q ref =>
    rw [Solver.params] at hQ
    cases hr : ref.params F with
    | error e => rw [hr] at hQ; cases hQ
    | ok T =>
      rw [hr] at hQ
      cases hQ
      simp [Solver.set, Solver.setWith, Base.set, loadEv, Ctl.load, maybeLoad, maybeSet, maybeSub,
        h "h_init" (by simp [Base.params, Ctl.save, saveEv, find_put]),
        h "h_min" (by simp [Base.params, Ctl.save, saveEv, find_put]),
        h "eventctl" (by simp [Base.params, saveEv, find_put]), h "enorm" (by simp [Base.params, Ctl.save, saveEv, find_put]),
        h "stepsizectl" (by simp [Base.params, Ctl.save, saveEv, find_put]), h "disable_error_check" (by simp [find_put]),
        h "symmetric" (by simp [find_put]), h "max_stages" (by simp [find_put]), h "step_sequence" (by simp [find_put]),
        h "reference_solver" (by simp [find_put])]
  | implicit b n ec a pr k re =>
    rw [Solver.params] at hQ
    cases hn : n.params F with
    | error e => rw [hn] at hQ; cases hQ
    | ok N =>
      cases hr : pr.params F with
      | error e => rw [hr, hn] at hQ; cases hQ
      | ok T =>
        rw [hr, hn] at hQ
        cases hQ
        simp [Solver.set, Solver.setWith, Base.set, loadEv, maybeLoad, maybeSet, maybeSub,
          h "h_init" (by simp [Base.params, saveEv, find_put]), h "h_min" (by simp [Base.params, saveEv, find_put]),
          h "eventctl" (by simp [Base.params, saveEv, find_put]), h "algsolver" (by simp [saveEv, find_put]),
          h "alpha" (by simp [find_put]), h "predictor" (by simp [find_put]), h "predictor_steps" (by simp [find_put]),
          h "reorder" (by simp [find_put])]

/-- C117. `setParameters` of the configuration with a set without its parameters changes nothing. -/
theorem C117_frame_configuration (p : Provider R) (P : Params)
    (h : ∀ k ∈ ["rhs", "solver", "reference_solver", "time", "output_timing", "simout_basename", "output_stats", "output_con",
      "output_file", "init_state"], findKV k P = none) : p.set F P = .ok p := by
  simp only [List.mem_cons, List.not_mem_nil, or_false, forall_eq_or_imp, forall_eq] at h
  obtain ⟨h1, h2, h3, h4, h5, h6, h7, h8, h9, h10⟩ := h
  simp [Provider.set, maybeLoad, maybeSet, h1, h2, h3, h4, h5, h6, h7, h8, h9, h10]

/-- C117. A solver whose type identifier is not one of the registered ones is refused with an exception that names it. -/
theorem C117_unknown_type (t : Text) (nested : Option Params) (ht : t ∉ ["", "euler", "rk4", "dopri_45", "dopri_56",
    "dopri_78", "rosenbrock_w1", "rosenbrock_sw2_4", "gragg", "extrapolator", "i_euler"].map String.toList) (p : Provider R) :
    p.set F [("solver", .node t nested)] =
      .error (.exc (String.ofList ("Failed to find type '".toList ++ t ++ "' in registry".toList))) := by
  simp only [List.map_cons, List.map_nil, List.mem_cons, List.not_mem_nil, or_false, not_or] at ht
  obtain ⟨h0, h1, h2, h3, h4, h5, h6, h7, h8, h9, h10⟩ := ht
  have hl : Solver.load F (.node t nested) = (unknown t : Res (Solver R)) := by
    have hn : (Solver.new t : Res (Solver R)) = unknown t := by
      unfold Solver.new
      rw [if_neg h1, if_neg h2, if_neg h3, if_neg h4, if_neg h5, if_neg h6, if_neg h7, if_neg h8, if_neg h9, if_neg h10]
    rw [Solver.load, if_neg (by simpa using h0)]
    simp only [hn]
    rfl
  have e1 : findKV "rhs" [("solver", Tree.node t nested)] = none := rfl
  have e2 : findKV "solver" [("solver", Tree.node t nested)] = some (.node t nested) := rfl
  simp only [Provider.set, maybeLoad, maybeSet, e1, e2, hl]
  rfl

/-! ### What is lost -/

/-- C117 (false in general). `parameters` of an implicit Euler solver with a reordering mapping cannot be told from those of a
solver without one: the mapping is lost when settings are saved and loaded. -/
theorem C117_reorder_false (hF : ∀ x, F.get (F.put x) = .ok (r x)) (b : Base R) (n : Newton R) (hn : n.Good)
    (ec : Option EvCtl) (a : R) (k : Nat) (hk : k < 2 ^ 32) :
    ∃ P, (Solver.implicit b n ec a .null k true).params F = .ok P ∧
      ∀ y : Solver R, y.id = "i_euler" → y.set F P = .ok (.implicit (b.map r) (n.map r) ec (r a) .null k false) := by
  obtain ⟨P, h1, h2⟩ := C117_solver_partial hF (.implicit b n ec a .null k false) ⟨hn, trivial, hk, rfl⟩
  exact ⟨P, h1, h2⟩

/-- C117 (false in general). A ball that sticks to the plane has the parameters of one that does not. -/
theorem C117_sticking_false (g c s : R) :
    (Model.ball g c s true).params F = (Model.ball g c s false).params F := rfl

/-- C117 (false in general). Parameters of an embedded solver without error norm calculator (error check disabled, say) can be
saved; setting them is undefined. -/
theorem C117_enorm_false (hF : ∀ x, F.get (F.put x) = .ok (r x)) (k : EmbKind) (b : Base R) (sc : Option (StepCtl R))
    (ec : Option EvCtl) (e : EmbSet R) (y : Solver R) (hy : y.id = (Solver.embedded k b ⟨none, sc⟩ ec e).id) :
    ∃ P, (Solver.embedded k b ⟨none, sc⟩ ec e).params F = .ok P ∧ y.set F P = .error .ub := by
  refine ⟨_, rfl, ?_⟩
  have h2 := ErrNorm.load_ptr none
  rcases k <;> rcases y with _ | ⟨⟨⟩, _, _⟩ | ⟨⟨⟩, _, _, _, _⟩ | _ | _ | _ | _ | _ <;> simp [Solver.id] at hy <;>
  simp [Solver.set, Solver.setWith, Base.set, Base.params, saveEv, Ctl.load, Ctl.save, maybeLoad, maybeSet, find_put,
    leaf, Tree.text, hF, h2, notNull]

/-- C117 (false in general). `parameters` of a Newton solver whose descent direction has no Jacobian provider is undefined. -/
theorem C117_jacobian_false (d : DirKind) (s : Option Search) (e : Option (Est R)) (m : Nat) :
    (Newton.mk (some ⟨some ⟨d, none⟩, s, e⟩) m).params F = .error .ub := rfl

end

/-! ### Examples -/

/-- Texts of rational numbers -/
def codeFmt : Fmt ℚ where
  put x := List.replicate (Encodable.encode x) '1'
  get t := match Encodable.decode (α := ℚ) t.length with
    | some x => .ok x
    | none => .error (.exc "Not a number")

theorem codeFmt_ok (x : ℚ) : codeFmt.get (codeFmt.put x) = .ok (id x) := by
  simp [codeFmt]

/-- A ball, an extrapolator over the implicit Euler method with the lazy direction, and an initial state -/
def sample : Provider ℚ :=
  ⟨some (.ball 10 (1 / 2) 0 false),
    .extrapolator ⟨1 / 8, 0⟩ .init none ⟨true, false, 6⟩ (some .harmonic)
      (.implicit ⟨1 / 4, 0⟩ ⟨some ⟨some ⟨.lazy 7, some ⟨.sparse, some (.width 3)⟩⟩, some .simple, none⟩, 20⟩ none (1 / 2)
        (.fixed .euler .init none) 2 false),
    .null, 5, 1 / 10, "run".toList, some (.stats "s.txt".toList), none, some (.columnwise [] 30), some ⟨1, [2, 3]⟩⟩

/-- The sample can be saved, and is restored exactly. -/
example : ∃ P, sample.params codeFmt = .ok P ∧ ∀ q : Provider ℚ, q.set codeFmt P = .ok (sample.map id) :=
  C117_roundtrip_partial codeFmt_ok sample
    ⟨by simp [sample, Model.Good],
      ⟨by simp [Ctl.init], by norm_num, ⟨by norm_num, by
        intro p hp
        cases hp
        refine ⟨by simp, _, _, rfl, rfl, by simp [DirKind.Good], ?_⟩
        intro t ht
        cases ht
        simp [Trim.Good]⟩, trivial, by norm_num, rfl⟩, trivial, by simp [sample, Output.Good], by simp [sample],
      by simp [sample, Output.Good], by simp [sample]⟩

/-- A misspelled parameter -/
example : (Solver.gragg (⟨1, 0⟩ : Base ℚ) none true).set codeFmt [("h_inti", leaf "0.5".toList)] =
    .ok (.gragg ⟨1, 0⟩ none true) :=
  C117_frame _ _ _ rfl (fun k hk => by
    by_cases e : "h_inti" = k
    · subst e
      exact absurd (by simp [Base.params, saveEv, find_put, find_nil]) hk
    · simp [findKV, e])

/-- A misspelled type -/
example (p : Provider ℚ) : ∃ m, p.set codeFmt [("solver", leaf "rk5".toList)] = .error (.exc m) :=
  ⟨_, C117_unknown_type _ none (by decide) p⟩

end Verif.Config
