import Verif.Driver.IndexProps
import Verif.Loop
import Mathlib.Algebra.Field.Rat
import Mathlib.Algebra.Order.Ring.Unbundled.Rat

/-! # C96, C97: applying a configuration, the initial state given by parameters -/

set_option linter.unusedSectionVars false

namespace Verif.Driver

open Verif.Res

section
variable {K : Type} [Field K] [LinearOrder K]

/-! ### Initial state -/

/-- The initial state after its size is set -/
def InitState.sized (s : InitState K) : Option Int → InitState K
  | none => s
  | some n => { s with x := s.x ++ List.replicate (n.toNat - s.x.length) 0 }

theorem resize_ok (s : InitState K) (n : Int) (h : (s.x.length : Int) ≤ n) : s.resize n = .ok (s.sized (some n)) := by
  unfold InitState.resize InitState.sized
  by_cases he : n = s.x.length
  · subst he
    rw [if_pos rfl]
    simp
  · rw [if_neg he, if_neg (by omega), if_neg (by omega)]

theorem fillLoop (f : Nat → Option K) (x : List K) :
    loop 0 x.length (fun i x => match f i with
      | some v => atSet x i v
      | none => .ok x) x = .ok ((List.range x.length).map (fun i => (f i).getD (x.getD i 0))) := by
  have h := loop_post (E := fun _ => False) (P := fun k (y : List K) => y.length = x.length ∧
      ∀ i, y.getD i 0 = if i < k then (f i).getD (x.getD i 0) else x.getD i 0)
    (lo := 0) (hi := x.length) (s := x) (f := fun i x => match f i with
      | some v => atSet x i v
      | none => .ok x) (by omega) ⟨rfl, by simp⟩ (by
    intro k y hk1 hk ⟨hl, hy⟩
    cases hf : f k with
    | none =>
      refine ⟨hl, ?_⟩
      intro i
      rw [hy]
      by_cases h1 : i < k
      · rw [if_pos h1, if_pos (by omega)]
      · rw [if_neg h1]
        by_cases h2 : i = k
        · subst h2
          rw [if_pos (by omega), hf]
          rfl
        · rw [if_neg (by omega)]
    | some v =>
      have ha : atSet y k v = .ok (y.set k v) := by
        unfold atSet
        rw [if_pos (by omega)]
      refine Post.of_ok ha ⟨by simpa using hl, ?_⟩
      · intro i
        rw [List.getD_eq_getElem?_getD, List.getElem?_set]
        by_cases h2 : k = i
        · subst h2
          rw [if_pos rfl, if_pos (by omega), if_pos (by omega), hf]
          rfl
        · rw [if_neg h2, ← List.getD_eq_getElem?_getD, hy]
          by_cases h1 : i < k
          · rw [if_pos h1, if_pos (by omega)]
          · rw [if_neg h1, if_neg (by omega)])
  obtain ⟨y, h1, h2, h3⟩ := post_false_iff.1 h
  rw [h1]
  congr 1
  apply List.ext_getElem (by simp [h2])
  intro i a b
  have := h3 i
  rw [List.getD_eq_getElem?_getD, List.getElem?_eq_getElem a, if_pos (by omega)] at this
  simpa using this

/-- C97. Loading parameters that do not make the state smaller: the size becomes the one given, the time the one
given, and each variable the one given under its name, otherwise what it was, or zero if it is new. -/
theorem C97_set (s : InitState K) (p : InitParams K) (hn : ∀ n ∈ p.size, (s.x.length : Int) ≤ n) :
    s.setParameters p = .ok ⟨p.time.getD s.time, (List.range (s.sized p.size).x.length).map
      (fun i => (p.find (initVarName i)).getD ((s.sized p.size).x.getD i 0))⟩ := by
  obtain ⟨sz, tm, xs⟩ := p
  have h3 : ∀ u : InitState K, loop 0 u.x.length (fun i x =>
      match (⟨sz, tm, xs⟩ : InitParams K).find (initVarName i) with
      | some v => atSet x i v
      | none => .ok x) u.x = _ := fun u => fillLoop _ u.x
  have h4 : ∀ u : InitState K, (loop 0 u.x.length (fun i x =>
      match (⟨sz, tm, xs⟩ : InitParams K).find (initVarName i) with
      | some v => atSet x i v
      | none => .ok x) u.x >>= fun x => (.ok { u with x := x } : Res (InitState K))) = .ok ⟨u.time,
        (List.range u.x.length).map (fun i =>
          ((⟨sz, tm, xs⟩ : InitParams K).find (initVarName i)).getD (u.x.getD i 0))⟩ := by
    intro u
    rw [h3]
    rfl
  cases sz with
  | none =>
    cases tm with
    | none => exact h4 s
    | some t => exact h4 ⟨t, s.x⟩
  | some n =>
    have h1 := resize_ok s n (hn n rfl)
    unfold InitState.setParameters
    simp only [h1, bind_ok]
    cases tm with
    | none => exact h4 _
    | some t => exact h4 ⟨t, (s.sized (some n)).x⟩

theorem find_parameters (s : InitState K) (hs : s.x.length ≤ 2147483648) (i : Nat) (hi : i < s.x.length) :
    s.parameters.find (initVarName i) = some (s.x.getD i 0) := by
  unfold InitParams.find InitState.parameters
  simp only
  have key : ∀ (l : List Nat), (∀ j ∈ l, j < 2147483648) → i ∈ l →
      (l.map (fun i => (initVarName i, s.x.getD i 0))).find? (fun e => decide (e.1 = initVarName i))
        = some (initVarName i, s.x.getD i 0) := by
    intro l hl hil
    induction l with
    | nil => cases hil
    | cons j l ih =>
      rw [List.map_cons, List.find?_cons]
      by_cases hji : j = i
      · subst hji
        simp
      · have : initVarName j ≠ initVarName i := by
          intro h
          exact hji (formatInt_inj (hl j (List.mem_cons_self ..)) (by omega) (List.cons.inj h).2)
        simp only [this, decide_false]
        refine ih (fun j hj => hl j (List.mem_cons_of_mem _ hj)) ?_
        rcases List.mem_cons.1 hil with h | h
        · exact absurd h.symm hji
        · exact h
  rw [key _ (fun j hj => by rw [List.mem_range] at hj; omega) (List.mem_range.2 hi)]
  rfl

/-- C97, what holds: the parameters of an initial state, loaded into an initial state that is not larger, make
the same initial state. -/
theorem C97_roundtrip_partial (s t : InitState K) (hs : s.x.length ≤ 2147483648) (ht : t.x.length ≤ s.x.length) :
    t.setParameters s.parameters = .ok s := by
  rw [C97_set t s.parameters (by intro n hn; cases hn; exact_mod_cast ht)]
  have hl : (t.sized s.parameters.size).x.length = s.x.length := by
    simp only [InitState.sized, InitState.parameters, List.length_append, List.length_replicate]
    omega
  rw [hl]
  congr 1
  have hx : (List.range s.x.length).map (fun i => (s.parameters.find (initVarName i)).getD
      ((t.sized s.parameters.size).x.getD i 0)) = s.x := by
    apply List.ext_getElem (by simp)
    intro i a b
    rw [List.getElem_map, List.getElem_range, find_parameters s hs i b]
    simp [List.getElem?_eq_getElem b]
  rw [hx]
  rfl

/-- C97, names: variable `i` is given under the name `x` followed by `i` in decimal digits; the others keep their values. -/
theorem C97_named (s : InitState K) (i : Nat) (v : K) (hi : i < s.x.length) (hs : s.x.length ≤ 2147483648) :
    s.setParameters ⟨none, none, [(("x" ++ toString i).toList, v)]⟩ = .ok ⟨s.time, s.x.set i v⟩ := by
  have name : ∀ j, j < 2147483648 → initVarName j = ("x" ++ toString j).toList := by
    intro j hj
    unfold initVarName formatInt
    rw [if_pos (by omega), Nat.mod_eq_of_lt (by omega)]
    simp [Util.dec]
  rw [C97_set s _ (by simp)]
  congr 2
  refine List.ext_getElem (by simp [InitState.sized]) (fun j h1 h2 => ?_)
  rw [List.getElem_set]
  simp only [List.getElem_map, List.getElem_range]
  have hj : j < s.x.length := by simpa using h2
  unfold InitParams.find
  rw [List.find?_cons, ← name i (by omega)]
  by_cases hij : i = j
  · subst hij
    simp
  · have : initVarName i ≠ initVarName j := fun h =>
      hij (formatInt_inj (by omega) (by omega) (List.cons.inj h).2)
    simp [this, hij, InitState.sized, hj]

/-- C97 is false: loading the parameters of a smaller initial state is undefined behaviour, a filled range ends
before it begins. -/
theorem C97_shrink_false (s t : InitState K) (h : s.x.length < t.x.length) :
    t.setParameters s.parameters = .error .ub := by
  unfold InitState.setParameters InitState.parameters InitState.resize
  simp only
  rw [if_neg (by omega), if_neg (by omega), if_pos (by omega)]
  rfl

/-- C97. A negative size is refused. -/
theorem C97_negative (s : InitState K) (p : InitParams K) (n : Int) (hp : p.size = some n) (hn : n < 0) :
    s.setParameters p = .error (.exc "length_error") := by
  unfold InitState.setParameters InitState.resize
  rw [hp]
  simp only
  rw [if_neg (by omega), if_pos hn]
  rfl

/-! ### Applying a configuration -/

/-- C96. Without a solver `apply` throws. -/
theorem C96_noSolver (ref : Option (Conf K)) (rhs : Option Nat) (init : Option (String × InitState K)) (t : K)
    (x : List K) : apply none ref rhs init t x = .error (.exc "ODE solver is not specified") := rfl

/-- C96. With a right-hand side of `n` variables and an initial state given by the configuration: the solver and
the reference solver get the right-hand side, the time and the state given if the size fits; otherwise `apply`
throws. -/
theorem C96_specified (s : Conf K) (ref : Option (Conf K)) (n : Nat) (id : String) (i : InitState K)
    (hid : id ≠ "sim_dyn_initial") (t : K) (x : List K) :
    (i.x.length = n → apply (some s) ref (some n) (some (id, i)) t x =
      .ok (⟨some n, i.time, i.x⟩, ref.map (fun _ => ⟨some n, i.time, i.x⟩))) ∧
    (i.x.length ≠ n → ∃ e, apply (some s) ref (some n) (some (id, i)) t x = .error (.exc e)) := by
  constructor
  · intro h
    cases ref with
    | none =>
      unfold apply configureSolver
      simp only
      rw [if_neg hid]
      simp only
      rw [if_pos h]
      rfl
    | some r =>
      unfold apply configureSolver
      simp only
      rw [if_neg hid]
      simp only
      rw [if_pos h]
      rfl
  · intro h
    unfold apply configureSolver
    simp only
    rw [if_neg hid]
    simp only
    rw [if_neg h]
    exact ⟨_, rfl⟩

/-- C96. Without an initial state, or with the one that stands for that of the simulation, the solvers start
from the time and the state passed to `apply`. -/
theorem C96_passed (s : Conf K) (ref : Option (Conf K)) (rhs : Option Nat)
    (init : Option (String × InitState K)) (hi : ∀ p ∈ init, p.1 = "sim_dyn_initial") (t : K) (x : List K) :
    apply (some s) ref rhs init t x = .ok (⟨rhs, t, x⟩, ref.map (fun _ => ⟨rhs, t, x⟩)) := by
  cases init with
  | none => cases ref <;> rfl
  | some p =>
    obtain ⟨id, i⟩ := p
    have : id = "sim_dyn_initial" := hi _ rfl
    subst this
    cases ref <;> rfl

/-- C96 is false: with an initial state but without a right-hand side, a null pointer is dereferenced. -/
theorem C96_noRhs_false (s : Conf K) (ref : Option (Conf K)) (id : String) (i : InitState K)
    (hid : id ≠ "sim_dyn_initial") (t : K) (x : List K) :
    apply (some s) ref none (some (id, i)) t x = .error .ub := by
  unfold apply configureSolver
  simp only
  rw [if_neg hid]
  rfl

/-- C96 is false: the size of a state passed to `apply` is not checked. -/
theorem C96_size_false (s : Conf K) (n : Nat) (t : K) (x : List K) (_h : x.length ≠ n) :
    apply (some s) none (some n) none t x = .ok (⟨some n, t, x⟩, none) := rfl

end

/-- Two variables loaded over one: the second is new, the first is given a value, the time is kept. -/
example : (⟨3, [7]⟩ : InitState ℚ).setParameters ⟨some 2, none, [(initVarName 0, 5)]⟩ = .ok ⟨3, [5, 0]⟩ ∧
    (⟨0, [7]⟩ : InitState ℚ).setParameters (⟨1, [4, 6]⟩ : InitState ℚ).parameters = .ok ⟨1, [4, 6]⟩ := by
  decide +kernel

/-- The hypotheses of `C97_named` are met. -/
example : (⟨3, [7, 8]⟩ : InitState ℚ).setParameters ⟨none, none, [("x1".toList, 5)]⟩ = .ok ⟨3, [7, 5]⟩ := by
  decide +kernel

end Verif.Driver
