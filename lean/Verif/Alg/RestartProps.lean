import Verif.Alg.SolverProps

/-
C111: a run solves the equation the solver has when it is called.
-/

namespace Verif.Alg

variable {K : Type} [Field K] [LinearOrder K] [IsStrictOrderedRing K] {D : Type}

omit [IsStrictOrderedRing K] in
theorem guess_used (P : Parts D K) (s : Perf D K) (x : List K) (hard : Bool) : PerfUsed P (s.setInitialGuess P x hard) :=
  .reset hard (.new x s.f s.ratio s.est s.dir)

/-- C111, when the initial guess is set after the equation has been replaced or changed: whatever the performer, its error
estimator and its descent direction have been used for before (Jacobians and residuals of other equations), a run that
returns `Converged` gives a solution of the equation it has now, to within the absolute tolerance; and whatever a run
returns, the residual of this equation is not larger than that of the initial guess. -/
theorem C111_partial {P : Parts D K} {tl : Nat} (hs : SimpleSearch P tl) {s s' : Perf D K} {x f0 : List K} {hard : Bool}
    {observers : Nat → Perf D K → Res Bool} {limit : Nat} {st : RunStatus}
    (h : (P.env observers).run limit (s.setInitialGuess P x hard) = .ok (s', st)) (hf : P.F.map x = .ok f0) :
    (∃ f, P.F.map s'.x = .ok f ∧ normSq f ≤ normSq f0) ∧
    (st = .converged → 0 ≤ s.est.absTol → 0 ≤ s.est.relTol → ∃ f, P.F.map s'.x = .ok f ∧ ∀ r ∈ f, |r| ≤ s.est.absTol) := by
  refine ⟨C88_decrease hs (guess_used P s x hard) h hf, fun hc ha hr => ?_⟩
  subst hc
  exact C88_converged (s := s.setInitialGuess P x hard) hs (guess_used P s x hard) h ha hr

/-- `x - a` -/
def exMinus (a : ℚ) : Mapping ℚ := affine 1 (fun _ _ => 1) (fun _ => a)

/-- C111 is false when the initial guess is not set again: the solver solves `x - 2 = 0`, then is given `x - 5 = 0` (as when
the state of the mapping is changed), and a second run returns `Converged` with the solution 2. The residual it
has kept is that of the first equation. -/
theorem C111_false : ∃ s1 s2, ((parts .simple (exMinus 2) 1 8).env fun _ _ => .ok false).run 100 (exStart .default [1]) =
      .ok (s1, .converged) ∧ s1.x = [2] ∧
    ((parts .simple (exMinus 5) 1 8).env fun _ _ => .ok false).run 100 s1 = .ok (s2, .converged) ∧ s2.x = [2] ∧
    (exMinus 5).map [2] = .ok [-3] ∧ s2.est.absTol < 3 := by
  obtain ⟨⟨s1, st1⟩, h1, h2⟩ := Verif.Res.exists_of_test
    (r := ((parts .simple (exMinus 2) 1 8).env fun _ _ => .ok false).run 100 (exStart .default [1]))
    (p := fun r => match ((parts .simple (exMinus 5) 1 8).env fun _ _ => .ok false).run 100 r.1 with
      | .ok q => decide (r.1.x = [2] ∧ r.2 = .converged ∧ q.1.x = [2] ∧ q.2 = .converged ∧ q.1.est.absTol < 3)
      | .error _ => false) (by decide +kernel)
  dsimp only at h2
  split at h2
  · rename_i q hq
    obtain ⟨s2, st2⟩ := q
    obtain ⟨g1, g2, g3, g4, g5⟩ := of_decide_eq_true h2
    dsimp only at g1 g2 g3 g4 g5
    subst g2 g4
    exact ⟨s1, s2, h1, g1, hq, g3, by decide +kernel, g5⟩
  · cases h2

/-- With the initial guess set again, from the state after the first run, the second equation is solved; the
hypotheses of `C111_partial` are met. -/
example : ∃ s1 s2, ((parts .simple (exMinus 2) 1 8).env fun _ _ => .ok false).run 100 (exStart .default [1]) =
      .ok (s1, .converged) ∧
    ((parts .simple (exMinus 5) 1 8).env fun _ _ => .ok false).run 100
      (s1.setInitialGuess (parts .simple (exMinus 5) 1 8) [3] false) = .ok (s2, .converged) ∧ s2.x = [5] ∧
    SimpleSearch (parts .simple (exMinus 5) 1 8) 8 ∧ 0 ≤ s1.est.absTol ∧ 0 ≤ s1.est.relTol := by
  obtain ⟨⟨s1, st1⟩, h1, h2⟩ := Verif.Res.exists_of_test
    (r := ((parts .simple (exMinus 2) 1 8).env fun _ _ => .ok false).run 100 (exStart .default [1]))
    (p := fun r => match ((parts .simple (exMinus 5) 1 8).env fun _ _ => .ok false).run 100
        (r.1.setInitialGuess (parts .simple (exMinus 5) 1 8) [3] false) with
      | .ok q => decide (r.2 = .converged ∧ q.1.x = [5] ∧ q.2 = .converged ∧ 0 ≤ r.1.est.absTol ∧ 0 ≤ r.1.est.relTol)
      | .error _ => false) (by decide +kernel)
  dsimp only at h2
  split at h2
  · rename_i q hq
    obtain ⟨s2, st2⟩ := q
    obtain ⟨g1, g2, g3, g4, g5⟩ := of_decide_eq_true h2
    dsimp only at g1 g2 g3 g4 g5
    subst g1 g3
    exact ⟨s1, s2, h1, hq, g2, fun _ _ _ _ => rfl, g4, g5⟩
  · cases h2

end Verif.Alg
