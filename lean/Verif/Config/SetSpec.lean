import Verif.Config.SetModel
import Verif.Config.RoundTrip

/-
C121: which setting each parameter is. Each relation `Sets` lists the parameters of a class: settings before, path, value, settings
after.
-/

set_option linter.unusedSectionVars false

namespace Verif.Config

open Verif.Infra Verif.Driver Verif.TestModels Verif.Res

section
variable {R : Type} [Field R]

/-- Numbers rounded -/
def Val.map (r : R → R) : Val R → Val R
  | .num x => .num (r x)
  | .nat n => .nat n
  | .int n => .int n
  | .flag b => .flag b
  | .word t => .word t

/-- Numbers fit their types -/
def Val.Good : Val R → Prop
  | .nat n => n < 2 ^ 32
  | .int n => 0 ≤ n ∧ n < 2 ^ 31
  | _ => True

/-- A type identifier or another text -/
abbrev name (s : String) : Val R := .word s.toList

/-- Step size controller -/
inductive StepCtl.Sets : StepCtl R → String → Val R → StepCtl R → Prop
  | tolerance (c x) : Sets c "tolerance" (.num x) { c with tolerance := x }
  | insurance (c x) : Sets c "insurance" (.num x) { c with insurance := x }
  | incMin (c x) : Sets c "inc_min_factor" (.num x) { c with incMin := x }
  | incMax (c x) : Sets c "inc_max_factor" (.num x) { c with incMax := x }
  | decMax (c x) : Sets c "dec_max_factor" (.num x) { c with decMax := x }
  | maxThreshold (c x) : Sets c "max_threshold" (.num x) { c with maxThreshold := x }

/-- Error estimator -/
inductive Est.Sets : Est R → String → Val R → Est R → Prop
  | absTol (c x) : Sets c "abs_tol" (.num x) { c with absTol := x }
  | relTol (c x) : Sets c "rel_tol" (.num x) { c with relTol := x }
  | absMax (c x) : Sets c "abs_max_threshold" (.num x) { c with absMax := x }
  | relMax (c x) : Sets c "rel_max_threshold" (.num x) { c with relMax := x }

/-- Step sizes of all solvers -/
inductive Base.Sets : Base R → List String → Val R → Base R → Prop
  | hInit (b x) : Sets b ["h_init"] (.num x) { b with hInit := x }
  | hMin (b x) : Sets b ["h_min"] (.num x) { b with hMin := x }

/-- Step size control -/
inductive Ctl.Sets : Ctl R → List String → Val R → Ctl R → Prop
  | enorm (e s) : Sets ⟨e, s⟩ ["enorm"] (name "inf") ⟨some .inf, s⟩
  | new (e s) : Sets ⟨e, s⟩ ["stepsizectl"] (name "simple") ⟨e, some ⟨1 / 10 ^ 6, 8 / 10, 13 / 10, 2, 1 / 10, 0⟩⟩
  | drop (e s) : Sets ⟨e, s⟩ ["stepsizectl"] (name "") ⟨e, none⟩
  | nested (e s k v s') : StepCtl.Sets s k v s' → Sets ⟨e, some s⟩ ["stepsizectl", k] v ⟨e, some s'⟩

/-- Event controller -/
inductive EvSets : Option EvCtl → List String → Val R → Option EvCtl → Prop
  | new (e) : EvSets e ["eventctl"] (name "linear") (some .linear)
  | drop (e) : EvSets e ["eventctl"] (name "") none

/-- Trimmer -/
inductive TrimSets : Option (Trim R) → List String → Val R → Option (Trim R) → Prop
  | newWidth (t) : TrimSets t ["jtrim"] (name "width") (some (.width 0))
  | newThreshold (t) : TrimSets t ["jtrim"] (name "threshold") (some (.threshold 0))
  | drop (t) : TrimSets t ["jtrim"] (name "") none
  | width (w n) : TrimSets (some (.width w)) ["jtrim", "width"] (.nat n) (some (.width n))
  | threshold (x y) : TrimSets (some (.threshold x)) ["jtrim", "threshold"] (.num y) (some (.threshold y))

/-- Own parameters of embedded solvers -/
inductive EmbSet.Sets : EmbSet R → List String → Val R → EmbSet R → Prop
  | disable (s b) : Sets s ["disable_error_check"] (.flag b) { s with disable := b }
  | force (s b) : Sets s ["force_error_calc"] (.flag b) { s with force := b }
  | hAfter (s x) : Sets s ["h_after_switch"] (.num x) { s with hAfter := x }
  | high (s) : Sets s ["mode"] (name "high") { s with high := true }
  | low (s) : Sets s ["mode"] (name "low") { s with high := false }

/-- Own parameters of extrapolators -/
inductive ExSet.Sets : ExSet → List String → Val R → ExSet → Prop
  | symmetric (s b) : Sets s ["symmetric"] (.flag b) { s with symmetric := b }
  | disable (s b) : Sets s ["disable_error_check"] (.flag b) { s with disable := b }
  | stages (s n) : Sets s ["max_stages"] (.nat n) { s with stages := n }

/-- Step sequence -/
inductive SeqSets : Option Seq → List String → Val R → Option Seq → Prop
  | romberg (q) : SeqSets q ["step_sequence"] (name "romberg") (some .romberg)
  | bulirsch (q) : SeqSets q ["step_sequence"] (name "bulirsch") (some .bulirsch)
  | harmonic (q) : SeqSets q ["step_sequence"] (name "harmonic") (some .harmonic)
  | drop (q) : SeqSets q ["step_sequence"] (name "") none

/-- Names of descent directions, with the default of the parameter -/
inductive DirKind.Named : String → DirKind → Prop
  | simple : Named "simple" .simple
  | broyden : Named "broyden" .broyden
  | fakeBroyden : Named "fake-broyden" .fakeBroyden
  | lazy : Named "lazy-fake-broyden" (.lazy 10)
  | hart : Named "hart" .hart
  | const : Named "const" .const

/-- Names of Jacobian providers -/
inductive JpKind.Named : String → JpKind → Prop
  | default : Named "default" .default
  | sparse : Named "sparse" .sparse

/-- Newton solver; a new direction keeps the Jacobian provider, a new provider keeps the trimmer. -/
inductive Newton.Sets : Newton R → List String → Val R → Newton R → Prop
  | limit (n m) : Sets n ["max_iterations"] (.nat m) { n with limit := m }
  | drop (n) : Sets n ["itperf"] (name "") { n with itperf := none }
  | ddir (k k' j s e m i) : DirKind.Named i k' →
      Sets ⟨some ⟨some ⟨k, j⟩, s, e⟩, m⟩ ["ddir"] (name i) ⟨some ⟨some ⟨k', j⟩, s, e⟩, m⟩
  | lazy (q q' j s e m) : Sets ⟨some ⟨some ⟨.lazy q, j⟩, s, e⟩, m⟩ ["ddir", "lazy_iterations"] (.nat q')
      ⟨some ⟨some ⟨.lazy q', j⟩, s, e⟩, m⟩
  | jacobian (k jk jk' t s e m i) : JpKind.Named i jk' →
      Sets ⟨some ⟨some ⟨k, some ⟨jk, t⟩⟩, s, e⟩, m⟩ ["jacobian"] (name i) ⟨some ⟨some ⟨k, some ⟨jk', t⟩⟩, s, e⟩, m⟩
  | jtrim (k jk t t' s e m l v) : TrimSets t l v t' →
      Sets ⟨some ⟨some ⟨k, some ⟨jk, t⟩⟩, s, e⟩, m⟩ l v ⟨some ⟨some ⟨k, some ⟨jk, t'⟩⟩, s, e⟩, m⟩
  | search (d s e m) : Sets ⟨some ⟨d, s, e⟩, m⟩ ["linsearch"] (name "simple") ⟨some ⟨d, some .simple, e⟩, m⟩
  | newErr (d s e m) : Sets ⟨some ⟨d, s, e⟩, m⟩ ["err"] (name "simple")
      ⟨some ⟨d, s, some ⟨1 / 10 ^ 6, 1 / 10 ^ 6, 10 ^ 20, 10⟩⟩, m⟩
  | dropErr (d s e m) : Sets ⟨some ⟨d, s, e⟩, m⟩ ["err"] (name "") ⟨some ⟨d, s, none⟩, m⟩
  | err (d s e e' m k v) : Est.Sets e k v e' → Sets ⟨some ⟨d, s, some e⟩, m⟩ ["err", k] v ⟨some ⟨d, s, some e'⟩, m⟩

/-- Names of solvers, with the settings of a new one -/
inductive Solver.Named : String → Solver R → Prop
  | null : Named "" .null
  | euler : Named "euler" (.fixed .euler ⟨1 / 100, 1 / 10 ^ 16⟩ (some .linear))
  | rk4 : Named "rk4" (.fixed .rk4 ⟨1 / 100, 1 / 10 ^ 16⟩ (some .linear))
  | dopri45 : Named "dopri_45" (.embedded .dopri45 ⟨1 / 100, 1 / 10 ^ 16⟩
      ⟨some .inf, some ⟨1 / 10 ^ 6, 8 / 10, 13 / 10, 2, 1 / 10, 0⟩⟩ (some .linear) ⟨false, false, 0, false⟩)
  | dopri56 : Named "dopri_56" (.embedded .dopri56 ⟨1 / 100, 1 / 10 ^ 16⟩
      ⟨some .inf, some ⟨1 / 10 ^ 6, 8 / 10, 13 / 10, 2, 1 / 10, 0⟩⟩ (some .linear) ⟨false, false, 0, false⟩)
  | dopri78 : Named "dopri_78" (.embedded .dopri78 ⟨1 / 100, 1 / 10 ^ 16⟩
      ⟨some .inf, some ⟨1 / 10 ^ 6, 8 / 10, 13 / 10, 2, 1 / 10, 0⟩⟩ (some .linear) ⟨false, false, 0, false⟩)
  | w1 : Named "rosenbrock_w1" (.w1 ⟨1 / 100, 1 / 10 ^ 16⟩ none (some .linear) 1)
  | sw24 : Named "rosenbrock_sw2_4" (.sw24 ⟨1 / 100, 1 / 10 ^ 16⟩ none
      ⟨some .inf, some ⟨1 / 10 ^ 6, 8 / 10, 13 / 10, 2, 1 / 10, 0⟩⟩ (some .linear) 1 false)
  | gragg : Named "gragg" (.gragg ⟨1 / 100, 1 / 10 ^ 16⟩ (some .linear) false)
  | extrapolator : Named "extrapolator" (.extrapolator ⟨1 / 100, 1 / 10 ^ 16⟩
      ⟨some .inf, some ⟨1 / 10 ^ 6, 8 / 10, 13 / 10, 2, 1 / 10, 0⟩⟩ (some .linear) ⟨false, false, 4⟩ none .null)
  | implicit : Named "i_euler" (.implicit ⟨1 / 100, 1 / 10 ^ 16⟩
      ⟨some ⟨some ⟨.simple, some ⟨.default, none⟩⟩, some .simple, some ⟨1 / 10 ^ 6, 1 / 10 ^ 6, 10 ^ 20, 10⟩⟩, 100⟩
      (some .linear) 1 .null 1 false)

/-- Solvers -/
inductive Solver.Sets : Solver R → List String → Val R → Solver R → Prop
  | fixedBase (k b b' ec l v) : Base.Sets b l v b' → Sets (.fixed k b ec) l v (.fixed k b' ec)
  | fixedEv (k b ec ec' l v) : EvSets ec l v ec' → Sets (.fixed k b ec) l v (.fixed k b ec')
  | embBase (k b b' c ec s l v) : Base.Sets b l v b' → Sets (.embedded k b c ec s) l v (.embedded k b' c ec s)
  | embCtl (k b c c' ec s l v) : Ctl.Sets c l v c' → Sets (.embedded k b c ec s) l v (.embedded k b c' ec s)
  | embEv (k b c ec ec' s l v) : EvSets ec l v ec' → Sets (.embedded k b c ec s) l v (.embedded k b c ec' s)
  | embOwn (k b c ec s s' l v) : EmbSet.Sets s l v s' → Sets (.embedded k b c ec s) l v (.embedded k b c ec s')
  | w1Base (b b' t ec d l v) : Base.Sets b l v b' → Sets (.w1 b t ec d) l v (.w1 b' t ec d)
  | w1Trim (b t t' ec d l v) : TrimSets t l v t' → Sets (.w1 b t ec d) l v (.w1 b t' ec d)
  | w1Ev (b t ec ec' d l v) : EvSets ec l v ec' → Sets (.w1 b t ec d) l v (.w1 b t ec' d)
  | w1D (b t ec d x) : Sets (.w1 b t ec d) ["d"] (.num x) (.w1 b t ec x)
  | swBase (b b' t c ec d e l v) : Base.Sets b l v b' → Sets (.sw24 b t c ec d e) l v (.sw24 b' t c ec d e)
  | swTrim (b t t' c ec d e l v) : TrimSets t l v t' → Sets (.sw24 b t c ec d e) l v (.sw24 b t' c ec d e)
  | swCtl (b t c c' ec d e l v) : Ctl.Sets c l v c' → Sets (.sw24 b t c ec d e) l v (.sw24 b t c' ec d e)
  | swEv (b t c ec ec' d e l v) : EvSets ec l v ec' → Sets (.sw24 b t c ec d e) l v (.sw24 b t c ec' d e)
  | swD (b t c ec d e x) : Sets (.sw24 b t c ec d e) ["d"] (.num x) (.sw24 b t c ec x e)
  | swCheck (b t c ec d e f) : Sets (.sw24 b t c ec d e) ["disable_error_check"] (.flag f) (.sw24 b t c ec d f)
  | graggBase (b b' ec s l v) : Base.Sets b l v b' → Sets (.gragg b ec s) l v (.gragg b' ec s)
  | graggEv (b ec ec' s l v) : EvSets ec l v ec' → Sets (.gragg b ec s) l v (.gragg b ec' s)
  | graggSmooth (b ec s f) : Sets (.gragg b ec s) ["smooth"] (.flag f) (.gragg b ec f)
  | exBase (b b' c ec s q ref l v) : Base.Sets b l v b' →
      Sets (.extrapolator b c ec s q ref) l v (.extrapolator b' c ec s q ref)
  | exCtl (b c c' ec s q ref l v) : Ctl.Sets c l v c' →
      Sets (.extrapolator b c ec s q ref) l v (.extrapolator b c' ec s q ref)
  | exEv (b c ec ec' s q ref l v) : EvSets ec l v ec' →
      Sets (.extrapolator b c ec s q ref) l v (.extrapolator b c ec' s q ref)
  | exOwn (b c ec s s' q ref l v) : ExSet.Sets s l v s' →
      Sets (.extrapolator b c ec s q ref) l v (.extrapolator b c ec s' q ref)
  | exSeq (b c ec s q q' ref l v) : SeqSets q l v q' →
      Sets (.extrapolator b c ec s q ref) l v (.extrapolator b c ec s q' ref)
  | exNew (b c ec s q ref ref' i) : Solver.Named i ref' →
      Sets (.extrapolator b c ec s q ref) ["reference_solver"] (name i) (.extrapolator b c ec s q ref')
  | exRef (b c ec s q ref ref' l v) : Sets ref l v ref' →
      Sets (.extrapolator b c ec s q ref) ("reference_solver" :: l) v (.extrapolator b c ec s q ref')
  | imBase (b b' n ec a pr k re l v) : Base.Sets b l v b' →
      Sets (.implicit b n ec a pr k re) l v (.implicit b' n ec a pr k re)
  | imNewton (b n n' ec a pr k re l v) : Newton.Sets n l v n' →
      Sets (.implicit b n ec a pr k re) ("algsolver" :: l) v (.implicit b n' ec a pr k re)
  | imNew (b n ec a pr k re) : Sets (.implicit b n ec a pr k re) ["algsolver"] (name "newton")
      (.implicit b ⟨some ⟨some ⟨.simple, some ⟨.default, none⟩⟩, some .simple, some ⟨1 / 10 ^ 6, 1 / 10 ^ 6, 10 ^ 20, 10⟩⟩,
        100⟩ ec a pr k re)
  | imEv (b n ec ec' a pr k re l v) : EvSets ec l v ec' →
      Sets (.implicit b n ec a pr k re) l v (.implicit b n ec' a pr k re)
  | imAlpha (b n ec a pr k re x) : Sets (.implicit b n ec a pr k re) ["alpha"] (.num x) (.implicit b n ec x pr k re)
  | imNewPr (b n ec a pr pr' k re i) : Solver.Named i pr' →
      Sets (.implicit b n ec a pr k re) ["predictor"] (name i) (.implicit b n ec a pr' k re)
  | imPr (b n ec a pr pr' k re l v) : Sets pr l v pr' →
      Sets (.implicit b n ec a pr k re) ("predictor" :: l) v (.implicit b n ec a pr' k re)
  | imSteps (b n ec a pr k re m) : Sets (.implicit b n ec a pr k re) ["predictor_steps"] (.nat m)
      (.implicit b n ec a pr m re)

/-- Names of test models, with the settings of a new one -/
inductive Model.Named : String → Option (Model R) → Prop
  | null : Named "" none
  | oscillator : Named "oscillator" (some (.oscillator 1000 100))
  | coupled : Named "coupled_nl_osc" (some (.coupled 10 1000 1000 100))
  | stiff : Named "stiff_1d" (some (.stiff 50))
  | sliding : Named "sliding_point" (some (.sliding .atan 1 1 1 10 10 100))
  | ball : Named "bouncing_ball" (some (.ball (98 / 10) (9 / 10) (1 / 10 ^ 5) false))

/-- Names of kinds of friction -/
inductive FrictionNamed : String → Friction → Prop
  | atan : FrictionNamed "atan" .atan
  | linear : FrictionNamed "linear" .linear
  | tabular : FrictionNamed "tabular" .tabular

/-- Test models -/
inductive Model.Sets : Model R → String → Val R → Model R → Prop
  | oscC (c f x) : Sets (.oscillator c f) "c" (.num x) (.oscillator x f)
  | oscF (c f x) : Sets (.oscillator c f) "f" (.num x) (.oscillator c x)
  | coN (n c0 c2 f m) : Sets (.coupled n c0 c2 f) "n" (.nat m) (.coupled m c0 c2 f)
  | coC0 (n c0 c2 f x) : Sets (.coupled n c0 c2 f) "c0" (.num x) (.coupled n x c2 f)
  | coC2 (n c0 c2 f x) : Sets (.coupled n c0 c2 f) "c2" (.num x) (.coupled n c0 x f)
  | coF (n c0 c2 f x) : Sets (.coupled n c0 c2 f) "f" (.num x) (.coupled n c0 c2 x)
  | stiff (a x) : Sets (.stiff a) "a" (.num x) (.stiff x)
  | friction (k m f0 v0 F1 F2 w i k') : FrictionNamed i k' →
      Sets (.sliding k m f0 v0 F1 F2 w) "friction" (name i) (.sliding k' m f0 v0 F1 F2 w)
  | mass (k m f0 v0 F1 F2 w x) : Sets (.sliding k m f0 v0 F1 F2 w) "mass" (.num x) (.sliding k x f0 v0 F1 F2 w)
  | f0 (k m f0 v0 F1 F2 w x) : Sets (.sliding k m f0 v0 F1 F2 w) "f0" (.num x) (.sliding k m x v0 F1 F2 w)
  | v0 (k m f0 v0 F1 F2 w x) : Sets (.sliding k m f0 v0 F1 F2 w) "v0" (.num x) (.sliding k m f0 x F1 F2 w)
  | F1 (k m f0 v0 F1 F2 w x) : Sets (.sliding k m f0 v0 F1 F2 w) "F1" (.num x) (.sliding k m f0 v0 x F2 w)
  | F2 (k m f0 v0 F1 F2 w x) : Sets (.sliding k m f0 v0 F1 F2 w) "F2" (.num x) (.sliding k m f0 v0 F1 x w)
  | omega (k m f0 v0 F1 F2 w x) : Sets (.sliding k m f0 v0 F1 F2 w) "omega" (.num x) (.sliding k m f0 v0 F1 F2 x)
  | gravity (g c s st x) : Sets (.ball g c s st) "gravity_acceleration" (.num x) (.ball x c s st)
  | recovery (g c s st x) : Sets (.ball g c s st) "recovery_factor" (.num x) (.ball g x s st)
  | stick (g c s st x) : Sets (.ball g c s st) "stick_speed" (.num x) (.ball g c x st)

/-- Names of output options, with the settings of a new one -/
inductive Output.Named : String → Option Output → Prop
  | null : Named "" none
  | stats : Named "stats_full" (some (.stats []))
  | general : Named "con_general" (some (.general []))
  | solution : Named "con_solution" (some (.solution [] 5))
  | columnwise : Named "con_solution_columnwise" (some (.columnwise [] 10))

/-- Output options -/
inductive Output.Sets : Output → String → Val R → Output → Prop
  | stats (f g) : Sets (.stats f) "file_name" (.word g) (.stats g)
  | general (f g) : Sets (.general f) "file_name" (.word g) (.general g)
  | solution (f n g) : Sets (.solution f n) "file_name" (.word g) (.solution g n)
  | columnwise (f n g) : Sets (.columnwise f n) "file_name" (.word g) (.columnwise g n)
  | half (f n m) : Sets (.solution f n) "size_half_lim" (.nat m) (.solution f m)
  | steps (f n m) : Sets (.columnwise f n) "max_steps" (.nat m) (.columnwise f m)

/-- Outputs by name and their parameters -/
inductive OutSets : Option Output → List String → Val R → Option Output → Prop
  | new (o o' i) : Output.Named i o' → OutSets o [] (name i) o'
  | nested (o o' k v) : Output.Sets o k v o' → OutSets (some o) [k] v (some o')

/-- Initial state: a new size keeps the variables there are and adds zeros. -/
inductive InitSets : Option (InitState R) → List String → Val R → Option (InitState R) → Prop
  | new (s) : InitSets s [] (name "specified") (some ⟨0, []⟩)
  | drop (s) : InitSets s [] (name "") none
  | time (t x t') : InitSets (some ⟨t, x⟩) ["time"] (.num t') (some ⟨t', x⟩)
  | size (t x) (n : Nat) : InitSets (some ⟨t, x⟩) ["size"] (.int n) (some ⟨t, x.take n ++ List.replicate (n - x.length) 0⟩)
  | var (t x i a) : i < x.length → InitSets (some ⟨t, x⟩) [varName i] (.num a) (some ⟨t, x.set i a⟩)

/-- The configuration -/
inductive Provider.Sets : Provider R → List String → Val R → Provider R → Prop
  | newRhs (p i m) : Model.Named i m → Sets p ["rhs"] (name i) { p with rhs := m }
  | rhs (p m m' k v) : p.rhs = some m → Model.Sets m k v m' → Sets p ["rhs", k] v { p with rhs := some m' }
  | newSolver (p i s) : Solver.Named i s → Sets p ["solver"] (name i) { p with solver := s }
  | solver (p s l v) : Solver.Sets p.solver l v s → Sets p ("solver" :: l) v { p with solver := s }
  | newRef (p i s) : Solver.Named i s → Sets p ["reference_solver"] (name i) { p with ref := s }
  | ref (p s l v) : Solver.Sets p.ref l v s → Sets p ("reference_solver" :: l) v { p with ref := s }
  | time (p x) : Sets p ["time"] (.num x) { p with time := x }
  | timing (p x) : Sets p ["output_timing"] (.num x) { p with timing := x }
  | basename (p t) : Sets p ["simout_basename"] (.word t) { p with basename := t }
  | stats (p o l v) : OutSets p.stats l v o → Sets p ("output_stats" :: l) v { p with stats := o }
  | con (p o l v) : OutSets p.con l v o → Sets p ("output_con" :: l) v { p with con := o }
  | file (p o l v) : OutSets p.file l v o → Sets p ("output_file" :: l) v { p with file := o }
  | init (p s l v) : InitSets p.init l v s → Sets p ("init_state" :: l) v { p with init := s }

end

end Verif.Config
