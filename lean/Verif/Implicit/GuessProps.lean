import Verif.Implicit.EulerProps

/-! # Where the iterations of an implicit step start -/

namespace Verif.Implicit

open Verif.Res Verif.Alg Verif.Vec

set_option linter.unusedSectionVars false

section
variable {K D E : Type} [Field K] [LinearOrder K]

theorem computeEqnState_ok (r : Rhs K) (e : List K) {y : List K} (h : y.length = 2 * r.n2 + r.n1) :
    ∃ v, computeEqnState r e y = .ok v ∧ v.length = r.n2 + r.n1 ∧
      ∀ i, i < r.n2 + r.n1 → v.getD i 0 = y.getD (r.n2 + i) 0 := by
  have hv := (C65_assign e _ _ (block_val e (l := y) (st := r.n2) (n := r.n2 + r.n1) (by omega))).1 (Or.inl rfl)
  refine ⟨_, ?_, ?_, fun i hi => getD_block hi⟩
  · unfold computeEqnState
    rw [hv]
    rfl
  · simp
    omega

theorem eqnInitialState_val (r : Rhs K) (m : EMap K) (h : m.x0.length = 2 * r.n2 + r.n1) :
    ∃ v, m.eqnInitialState r = .ok v ∧ v.length = r.n2 + r.n1 ∧
      ∀ i, i < r.n2 + r.n1 → v.getD i 0 = m.x0.getD (r.n2 + i) 0 := by
  refine ⟨_, clone_val (block_val [] (by omega)), ?_, fun i hi => getD_block hi⟩
  simp
  omega

/-- C119. The iterations of a step start from a state `y`: the one the predictor comes to from the state of the
solver in the number of steps set, each of them that part of the step of the solver, or, without a predictor,
the state of the solver itself. The unknowns of the Newton solver are the velocities and the variables of first
order of `y`, in the order of the reordering mapping, if there is one. -/
theorem C119_guess (M : IMethod D K E) (s : ISolver D K E) (h : K) {n2 n1 : Nat} (h2 : (M.rhs s.ec).n2 = n2)
    (h1 : (M.rhs s.ec).n1 = n1) {y : List K}
    (hy : match M.predictor with
      | some p => p (h / M.predictorSteps) M.predictorSteps s.map.t0 s.map.x0 = .ok y
      | none => y = s.map.x0)
    (hl : y.length = 2 * n2 + n1)
    (hord : ∀ o, M.order = some o → IsPerm (n2 + n1) o.1) :
    ∃ b g, s.guess M h = .ok (b, g) ∧ g.length = n2 + n1 ∧
      ∀ i, i < n2 + n1 → g.getD i 0 = y.getD (n2 + (match M.order with
        | some o => o.1.getD i 0
        | none => i)) 0 := by
  subst h2 h1
  have key : ∀ v : List K, v.length = (M.rhs s.ec).n2 + (M.rhs s.ec).n1 →
      (∀ i, i < (M.rhs s.ec).n2 + (M.rhs s.ec).n1 → v.getD i 0 = y.getD ((M.rhs s.ec).n2 + i) 0) →
      ∀ o, M.order = some o → ∃ g, order v o.1 = .ok g ∧ g.length = (M.rhs s.ec).n2 + (M.rhs s.ec).n1 ∧
        ∀ i, i < (M.rhs s.ec).n2 + (M.rhs s.ec).n1 →
          g.getD i 0 = y.getD ((M.rhs s.ec).n2 + o.1.getD i 0) 0 := by
    intro v a1 a2 o ho
    have hp := hord o ho
    refine ⟨_, order_perm hp a1, by simp, fun i hi => ?_⟩
    rw [getD_range_map _ hi, a2 _ (hp.lt i hi)]
  unfold ISolver.guess
  cases hp : M.predictor with
  | some p =>
    rw [hp] at hy
    dsimp only at hy ⊢
    rw [hy]
    obtain ⟨v, e1, e2, e3⟩ := computeEqnState_ok (M.rhs s.ec) s.eqnbuf hl
    simp only [bind_ok, e1]
    cases ho : M.order with
    | some o =>
      obtain ⟨g, g1, g2, g3⟩ := key v e2 e3 o ho
      simp only [g1, bind_ok]
      exact ⟨g, g, rfl, g2, g3⟩
    | none => exact ⟨v, v, rfl, e2, e3⟩
  | none =>
    rw [hp] at hy
    dsimp only at hy ⊢
    subst hy
    obtain ⟨v, e1, e2, e3⟩ := eqnInitialState_val (M.rhs s.ec) s.map hl
    cases ho : M.order with
    | some o =>
      obtain ⟨g, g1, g2, g3⟩ := key v e2 e3 o ho
      simp only [e1, bind_ok, g1]
      exact ⟨g, g, rfl, g2, g3⟩
    | none =>
      simp only [e1, bind_ok]
      exact ⟨_, v, rfl, e2, e3⟩

/-- C36, sizes: the step mapping takes vectors of the velocities and the variables of first order, and gives a
vector of the size it says. -/
theorem C36_sizes (r : Rhs K) {m : EMap K} (hm : Fresh r m) (hx0 : m.x0.length = 2 * r.n2 + r.n1) {x f0 f1 : List K}
    (hx : x.length = (m.mapping r).inSize) (hf0 : r.rhs m.t0 m.x0 = .ok f0) (hl0 : f0.length = 2 * r.n2 + r.n1)
    (hf1 : r.rhs (m.t0 + m.h) (full r.n2 m.alpha m.h m.x0 x) = .ok f1) (hl1 : f1.length = 2 * r.n2 + r.n1) :
    (m.mapping r).inSize = r.n2 + r.n1 ∧ ∃ y, (m.mapping r).map x = .ok y ∧ y.length = (m.mapping r).outSize := by
  have hs : (m.mapping r).inSize = r.n2 + r.n1 := Nat.add_comm _ _
  obtain ⟨m', e⟩ := map_ok r hm hx0 (hx.trans hs) hf0 hl0 hf1 hl1
  refine ⟨hs, residual r.n2 r.n1 m.alpha m.h m.x0 x f0 f1, ?_, ?_⟩
  · show (m.map r x >>= fun p => .ok p.2) = _
    rw [e, bind_ok]
  · unfold residual
    rw [List.length_map, List.length_range]
    exact Nat.add_comm _ _

end

/-- Implicit Euler on the pendulum of `exRhs`, with two steps of the explicit Euler method as the predictor and the unknowns
in reverse order -/
def exGuess : IMethod (Dir ℚ) ℚ Unit where
  rhs _ := exRhs
  parts F := Alg.parts .simple F 1 8
  observers _ _ := .ok false
  limit := 100
  order := some ([1, 0], [1, 0])
  predictor := some (fun h n t x => (List.range n).foldlM (fun y k => do
    let f ← exRhs.rhs (t + k * h) y
    .ok (y.zipWith (fun a b => a + h * b) f)) x)
  predictorSteps := 2
  ec := none

/-- The solver at time 0, state (1, 2, 3), step 1 -/
def exGuessSt : ISolver (Dir ℚ) ℚ Unit := { exSolver with map := (EMap.new : EMap ℚ).setInitialState 0 [1, 2, 3] }

/-- The hypotheses of `C119_guess` are met; `v` is predicted as 2 - 1/2 - 1 = 1/2, `z` as 3 + 1/4. -/
example : (∀ o, exGuess.order = some o → IsPerm 2 o.1) ∧
    (match exGuess.predictor with
      | some p => p (1 / exGuess.predictorSteps) exGuess.predictorSteps exGuessSt.map.t0 exGuessSt.map.x0
      | none => .error .ub) = .ok [11 / 4, 1 / 2, 13 / 4] ∧
    exGuessSt.guess exGuess 1 = .ok ([13 / 4, 1 / 2], [13 / 4, 1 / 2]) := by
  refine ⟨?_, by decide +kernel, by decide +kernel⟩
  intro o ho
  cases ho
  exact isPerm_of_perm (by decide)

/-- The hypotheses of `C36_sizes` are met. -/
example : Fresh exRhs ((EMap.new : EMap ℚ).setInitialState 0 [1, 2, 3]) ∧
    exRhs.rhs 0 [1, 2, 3] = .ok [2, -1, 0] ∧
    ((((EMap.new : EMap ℚ).setInitialState 0 [1, 2, 3]).mapping exRhs).map [4, 5]).map List.length = .ok 2 :=
  ⟨(fun h => by cases h), by decide +kernel, by decide +kernel⟩

end Verif.Implicit
