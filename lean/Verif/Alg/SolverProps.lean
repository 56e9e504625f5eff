import Verif.Alg.NewtonProps

/-! # Properties of `NewtonSolver::run` -/

namespace Verif.Alg

open Verif.Res Verif.Vec Verif.Sparse

set_option linter.unusedSectionVars false

/-! ### C22: what happens in a run -/

/-- What a run does, as its components see it -/
inductive Event (X : Type)
  | iteration (status : Status)
  | observers (stop : Bool)
  | adjust (changed : Bool)
  | reset (hard : Bool)
  | guess (x : X) (hard : Bool)
  | report (success : Bool)
  deriving DecidableEq

section
variable {σ X : Type}

/-- The same components, with a log of the calls that returned -/
def logged (E : Env σ X) : Env (σ × List (Event X)) X where
  iteration it s := do
    let r ← E.iteration it s.1
    .ok ((r.1, s.2 ++ [.iteration r.2]), r.2)
  observers n s := do
    let r ← E.observers n s.1
    .ok ((r.1, s.2 ++ [.observers r.2]), r.2)
  adjust s := do
    let r ← E.adjust s.1
    .ok ((r.1, s.2 ++ [.adjust r.2]), r.2)
  reset hard s := do
    let r ← E.reset hard s.1
    .ok (r, s.2 ++ [.reset hard])
  setInitialGuess x hard s := do
    let r ← E.setInitialGuess x hard s.1
    .ok (r, s.2 ++ [.guess x hard])
  solution s := E.solution s.1
  hardResetMayHelp s := E.hardResetMayHelp s.1
  reportSuccess b s := do
    let r ← E.reportSuccess b s.1
    .ok (r, s.2 ++ [.report b])

/-- Result without the log -/
def unlog {α : Type} (r : Res ((σ × List (Event X)) × α)) : Res (σ × α) := do
  let r ← r
  .ok (r.1.1, r.2)

theorem iterations_logged (E : Env σ X) (tried : Bool) (bias : Nat) :
    ∀ (left it : Nat) (s : σ) (l : List (Event X)),
      unlog ((logged E).iterations tried bias left it (s, l)) = E.iterations tried bias left it s := by
  intro left
  induction left with
  | zero => intro it s l; rfl
  | succ left ih =>
    intro it s l
    unfold Env.iterations unlog
    simp only [logged]
    cases h1 : E.iteration it s with
    | error e => rfl
    | ok r =>
      simp only [bind_ok]
      cases h2 : E.observers ((it + bias) % 4294967296) r.1 with
      | error e => rfl
      | ok o =>
        simp only [bind_ok]
        cases ho : o.2 with
        | true => rfl
        | false =>
          simp only [Bool.false_eq_true, if_false]
          cases h3 : E.adjust o.1 with
          | error e => rfl
          | ok a =>
            simp only [bind_ok]
            cases hr : r.2 with
            | proceed => exact ih _ _ _
            | converged =>
              cases ha : a.2 with
              | true => exact ih _ _ _
              | false =>
                simp only [Bool.false_eq_true, if_false]
                cases h4 : E.reportSuccess true a.1 <;> rfl
            | diverged =>
              cases ha : a.2 with
              | true => exact ih _ _ _
              | false =>
                simp only [Bool.false_eq_true, if_false]
                cases h4 : E.reportSuccess false a.1 with
                | error e => rfl
                | ok s4 =>
                  simp only [bind_ok]
                  cases tried <;> rfl

/-- C22: the log changes nothing: a logged run returns what the run returns. -/
theorem C22_logged (E : Env σ X) (limit : Nat) (s : σ) (l : List (Event X)) :
    unlog ((logged E).run limit (s, l)) = E.run limit s := by
  unfold Env.run
  cases h1 : E.reset false s with
  | error e => simp only [logged, h1]; rfl
  | ok s1 =>
    have e1 : (logged E).reset false (s, l) = .ok (s1, l ++ [.reset false]) := by
      simp only [logged, h1]; rfl
    rw [e1, bind_ok, bind_ok]
    have h2 := iterations_logged E false 0 limit 0 s1 (l ++ [.reset false])
    dsimp only
    rw [show (logged E).solution (s1, l ++ [.reset false]) = E.solution s1 from rfl]
    cases h3 : (logged E).iterations false 0 limit 0 (s1, l ++ [.reset false]) with
    | error e =>
      rw [h3] at h2
      rw [← h2]
      rfl
    | ok r =>
      obtain ⟨⟨s2, l2⟩, o, it⟩ := r
      rw [h3] at h2
      rw [← h2]
      simp only [unlog, bind_ok]
      cases o with
      | some st => rfl
      | none =>
        dsimp only
        rw [show (logged E).hardResetMayHelp (s2, l2) = E.hardResetMayHelp s2 from rfl]
        cases hh : E.hardResetMayHelp s2 with
        | false =>
          simp only [Bool.false_eq_true, if_false, logged]
          cases h4 : E.reportSuccess false s2 <;> rfl
        | true =>
          simp only [if_true]
          cases h4 : E.setInitialGuess (E.solution s1) true s2 with
          | error e => simp only [logged, h4]; rfl
          | ok s3 =>
            have e3 : (logged E).setInitialGuess (E.solution s1) true (s2, l2)
                = .ok (s3, l2 ++ [.guess (E.solution s1) true]) := by
              simp only [logged, h4]; rfl
            rw [e3, bind_ok, bind_ok]
            have h5 := iterations_logged E true it limit 0 s3 (l2 ++ [.guess (E.solution s1) true])
            cases h6 : (logged E).iterations true it limit 0 (s3, l2 ++ [.guess (E.solution s1) true]) with
            | error e =>
              rw [h6] at h5
              rw [← h5]
              rfl
            | ok r =>
              obtain ⟨⟨s4, l4⟩, o, it'⟩ := r
              rw [h6] at h5
              rw [← h5]
              simp only [unlog, bind_ok]
              cases o with
              | some st => rfl
              | none =>
                simp only [logged]
                cases h7 : E.reportSuccess false s4 <;> rfl

/-- Number of iterations in a log -/
def iterationCount (t : List (Event X)) : Nat :=
  t.countP (fun e => match e with | .iteration _ => true | _ => false)

/-- Events of a round: no restart, no reset -/
def Inner : Event X → Prop
  | .guess _ _ => False
  | .reset _ => False
  | _ => True

/-- How a round ends -/
def RoundEnd (limit : Nat) (tried : Bool) (t : List (Event X)) : Option RunStatus → Prop
  | some .converged => ∃ p, t = p ++ [.iteration .converged, .observers false, .adjust false, .report true]
  | some .terminated => ∃ p st, t = p ++ [.iteration st, .observers true]
  | some .diverged => tried = true ∧
      ∃ p, t = p ++ [.iteration .diverged, .observers false, .adjust false, .report false]
  | some .limitExceeded => False
  | none => (iterationCount t = limit ∧ Event.observers true ∉ t ∧ (∀ b, Event.report b ∉ t) ∧
        (0 < limit → Event.adjust true ∈ t ∨ ∃ r, r ≠ .diverged ∧ Event.iteration r ∈ t)) ∨
      (tried = false ∧
        ∃ p, t = p ++ [.iteration .diverged, .observers false, .adjust false, .report false])

theorem iterationCount_append (a b : List (Event X)) :
    iterationCount (a ++ b) = iterationCount a + iterationCount b := List.countP_append

theorem round_spec (E : Env σ X) (tried : Bool) (bias : Nat) :
    ∀ (left it : Nat) (s : σ) (l : List (Event X)) (s' : σ) (l' : List (Event X)) (o : Option RunStatus)
      (it' : Nat), (logged E).iterations tried bias left it (s, l) = .ok ((s', l'), o, it') →
      ∃ t, l' = l ++ t ∧ iterationCount t ≤ left ∧ (∀ e ∈ t, Inner e) ∧ RoundEnd left tried t o ∧
        (Event.observers true ∈ t → o = some .terminated) := by
  intro left
  induction left with
  | zero =>
    intro it s l s' l' o it' h
    unfold Env.iterations at h
    cases h
    exact ⟨[], by simp, le_refl _, (fun _ h => by cases h), Or.inl ⟨rfl, by simp, by simp, by simp⟩, by simp⟩
  | succ left ih =>
    intro it s l s' l' o it' h
    unfold Env.iterations at h
    obtain ⟨⟨⟨s1', l1⟩, st'⟩, h1, h⟩ := bind_inv h
    obtain ⟨⟨⟨s2', l2⟩, stop'⟩, h2, h⟩ := bind_inv h
    obtain ⟨⟨s1, st⟩, g1, h1⟩ := bind_inv h1
    cases h1
    obtain ⟨⟨s2, stop⟩, g2, h2⟩ := bind_inv h2
    cases h2
    dsimp only at h g1 g2
    cases stop with
    | true =>
      rw [if_pos rfl] at h
      cases h
      refine ⟨[.iteration st, .observers true], by simp, by simp [iterationCount],
        ?_, ⟨[], st, rfl⟩, fun _ => rfl⟩
      intro e he
      simp only [List.mem_cons, List.not_mem_nil, or_false] at he
      rcases he with rfl | rfl <;> trivial
    | false =>
      rw [if_neg (by simp)] at h
      obtain ⟨⟨⟨s3', l3⟩, changed'⟩, h3, h⟩ := bind_inv h
      obtain ⟨⟨s3, changed⟩, g3, h3⟩ := bind_inv h3
      cases h3
      dsimp only at h g3
      have hpre : ∀ st ch, ∀ e ∈ ([.iteration st, .observers false, .adjust ch] : List (Event X)), Inner e := by
        intro st ch e he
        simp only [List.mem_cons, List.not_mem_nil, or_false] at he
        rcases he with rfl | rfl | rfl <;> trivial
      have hgo : ∀ ch, st ≠ .diverged ∨ ch = true → (logged E).iterations tried bias left (it + 1)
          (s3, l ++ [.iteration st] ++ [.observers false] ++ [.adjust ch]) = .ok ((s', l'), o, it') →
          ∃ t, l' = l ++ t ∧ iterationCount t ≤ left + 1 ∧ (∀ e ∈ t, Inner e) ∧
            RoundEnd (left + 1) tried t o ∧ (Event.observers true ∈ t → o = some .terminated) := by
        intro ch hch h
        obtain ⟨t, t1, t2, t3, t4, t5⟩ := ih _ _ _ _ _ _ _ h
        have hc : iterationCount ([.iteration st, .observers false, .adjust ch] ++ t)
            = iterationCount t + 1 := by
          rw [iterationCount_append]
          simp [iterationCount, Nat.add_comm]
        refine ⟨[.iteration st, .observers false, .adjust ch] ++ t, by rw [t1]; simp, by omega, ?_, ?_,
          by simpa using t5⟩
        · intro e he
          rcases List.mem_append.1 he with he | he
          · exact hpre _ _ e he
          · exact t3 e he
        · cases o with
          | none =>
            rcases t4 with ⟨a, b, c, -⟩ | ⟨a, p, b⟩
            · refine Or.inl ⟨by omega, ?_, ?_, fun _ => ?_⟩
              · simpa using b
              · simpa using c
              · rcases hch with hch | rfl
                · exact Or.inr ⟨st, hch, by simp⟩
                · exact Or.inl (by simp)
            · exact Or.inr ⟨a, _ ++ p, by rw [b, List.append_assoc]⟩
          | some st' =>
            cases st' with
            | converged =>
              obtain ⟨p, b⟩ := t4
              exact ⟨_ ++ p, by rw [b, List.append_assoc]⟩
            | diverged =>
              obtain ⟨a, p, b⟩ := t4
              exact ⟨a, _ ++ p, by rw [b, List.append_assoc]⟩
            | terminated =>
              obtain ⟨p, st2, b⟩ := t4
              exact ⟨_ ++ p, st2, by rw [b, List.append_assoc]⟩
            | limitExceeded => exact t4.elim
      cases st with
      | proceed => exact hgo _ (Or.inl (by simp)) h
      | converged =>
        dsimp only at h
        cases changed with
        | true =>
          rw [if_pos rfl] at h
          exact hgo _ (Or.inr rfl) h
        | false =>
          rw [if_neg (by simp)] at h
          obtain ⟨⟨s4, l4⟩, h4, h⟩ := bind_inv h
          obtain ⟨s4', g4, h4⟩ := bind_inv h4
          cases h4
          cases h
          refine ⟨[.iteration .converged, .observers false, .adjust false, .report true], by simp,
            by simp [iterationCount], ?_, ⟨[], rfl⟩, by simp⟩
          intro e he
          simp only [List.mem_cons, List.not_mem_nil, or_false] at he
          rcases he with rfl | rfl | rfl | rfl <;> trivial
      | diverged =>
        dsimp only at h
        cases changed with
        | true =>
          rw [if_pos rfl] at h
          exact hgo _ (Or.inr rfl) h
        | false =>
          rw [if_neg (by simp)] at h
          obtain ⟨⟨s4, l4⟩, h4, h⟩ := bind_inv h
          obtain ⟨s4', g4, h4⟩ := bind_inv h4
          cases h4
          have hin : ∀ e ∈ ([.iteration .diverged, .observers false, .adjust false, .report false]
              : List (Event X)), Inner e := by
            intro e he
            simp only [List.mem_cons, List.not_mem_nil, or_false] at he
            rcases he with rfl | rfl | rfl | rfl <;> trivial
          cases htr : tried with
          | true =>
            rw [htr, if_pos rfl] at h
            cases h
            exact ⟨[.iteration .diverged, .observers false, .adjust false, .report false], by simp,
              by simp [iterationCount], hin, ⟨rfl, [], rfl⟩, by simp⟩
          | false =>
            rw [htr, if_neg (by simp)] at h
            cases h
            exact ⟨[.iteration .diverged, .observers false, .adjust false, .report false], by simp,
              by simp [iterationCount], hin, Or.inr ⟨rfl, [], rfl⟩, by simp⟩

/-- The log of a run: one or two rounds -/
theorem run_spec (E : Env σ X) {limit : Nat} {s s' : σ} {tr : List (Event X)} {st : RunStatus}
    (h : (logged E).run limit (s, []) = .ok ((s', tr), st)) :
    ∃ s1 t1, E.reset false s = .ok s1 ∧ iterationCount t1 ≤ limit ∧ (∀ e ∈ t1, Inner e) ∧
      ((tr = [.reset false] ++ t1 ∧ st ≠ .diverged ∧ RoundEnd limit false t1 (some st)) ∨
       (RoundEnd limit false t1 none ∧ tr = [.reset false] ++ t1 ++ [.report false] ∧ st = .limitExceeded) ∨
       (RoundEnd limit false t1 none ∧ ∃ t2, iterationCount t2 ≤ limit ∧ (∀ e ∈ t2, Inner e) ∧
        ((tr = [.reset false] ++ t1 ++ [.guess (E.solution s1) true] ++ t2 ∧
            RoundEnd limit true t2 (some st)) ∨
         (tr = [.reset false] ++ t1 ++ [.guess (E.solution s1) true] ++ t2 ++ [.report false] ∧
            RoundEnd limit true t2 none ∧ st = .limitExceeded)))) ∧
      (Event.observers true ∈ tr → st = .terminated) := by
  unfold Env.run at h
  obtain ⟨⟨s1, l1⟩, h1, h⟩ := bind_inv h
  obtain ⟨s1', g1, h1⟩ := bind_inv h1
  cases h1
  obtain ⟨⟨⟨s2, l2⟩, o, it⟩, h2, h⟩ := bind_inv h
  obtain ⟨t1, a1, a2, a3, a4, a5⟩ := round_spec E _ _ _ _ _ _ _ _ _ _ h2
  refine ⟨s1, t1, g1, a2, a3, ?_⟩
  dsimp only at h a1
  cases o with
  | some st' =>
    dsimp only at h
    cases h
    refine ⟨Or.inl ⟨a1, ?_, a4⟩, ?_⟩
    · rintro rfl
      exact Bool.false_ne_true a4.1
    · rw [a1]
      simpa using a5
  | none =>
    dsimp only at h
    split at h
    · obtain ⟨⟨s3, l3⟩, h3, h⟩ := bind_inv h
      obtain ⟨s3', g3, h3⟩ := bind_inv h3
      cases h3
      obtain ⟨⟨⟨s4, l4⟩, o, it'⟩, h4, h⟩ := bind_inv h
      obtain ⟨t2, b1, b2, b3, b4, b5⟩ := round_spec E _ _ _ _ _ _ _ _ _ _ h4
      have hno : Event.observers true ∉ t1 := fun hm => by cases a5 hm
      dsimp only at h b1
      cases o with
      | some st' =>
        dsimp only at h
        cases h
        refine ⟨Or.inr (Or.inr ⟨a4, t2, b2, b3, Or.inl ⟨by rw [b1, a1]; rfl, b4⟩⟩), ?_⟩
        rw [b1, a1]
        simpa [hno] using b5
      | none =>
        dsimp only at h
        obtain ⟨⟨s5, l5⟩, h5, h⟩ := bind_inv h
        obtain ⟨s5', g5, h5⟩ := bind_inv h5
        cases h5
        cases h
        refine ⟨Or.inr (Or.inr ⟨a4, t2, b2, b3, Or.inr ⟨by rw [b1, a1]; rfl, b4, rfl⟩⟩), ?_⟩
        have hno2 : Event.observers true ∉ t2 := fun hm => by cases b5 hm
        rw [b1, a1]
        simp [hno, hno2]
    · obtain ⟨⟨s5, l5⟩, h5, h⟩ := bind_inv h
      obtain ⟨s5', g5, h5⟩ := bind_inv h5
      cases h5
      cases h
      have hno : Event.observers true ∉ t1 := fun hm => by cases a5 hm
      refine ⟨Or.inr (Or.inl ⟨a4, by rw [a1]; rfl, rfl⟩), ?_⟩
      rw [a1]
      simp [hno]

/-- Number of restarts in a log -/
def restartCount (t : List (Event X)) : Nat :=
  t.countP (fun e => match e with | .guess _ _ => true | _ => false)

theorem restartCount_inner {t : List (Event X)} (h : ∀ e ∈ t, Inner e) : restartCount t = 0 := by
  unfold restartCount
  rw [List.countP_eq_zero]
  intro e he
  have := h e he
  cases e <;> simp_all [Inner]

/-- C22: bounds. A run makes at most twice the limit iterations and restarts at most once, with a hard
reset, from the solution it was started with. -/
theorem C22_bounds (E : Env σ X) {limit : Nat} {s s' : σ} {tr : List (Event X)} {st : RunStatus}
    (h : (logged E).run limit (s, []) = .ok ((s', tr), st)) :
    iterationCount tr ≤ 2 * limit ∧ restartCount tr ≤ 1 ∧
    ∃ s1, E.reset false s = .ok s1 ∧ ∀ x hard, Event.guess x hard ∈ tr → x = E.solution s1 ∧ hard = true := by
  obtain ⟨s1, t1, h1, h2, h3, hc, -⟩ := run_spec E h
  have hr1 := restartCount_inner h3
  have hno : ∀ t : List (Event X), (∀ e ∈ t, Inner e) → ∀ x hard, Event.guess x hard ∉ t :=
    fun t ht x hard hm => ht _ hm
  rcases hc with ⟨rfl, -, -⟩ | ⟨-, rfl, -⟩ | ⟨-, t2, h4, h5, ⟨rfl, -⟩ | ⟨rfl, -, -⟩⟩
  · refine ⟨?_, ?_, s1, h1, ?_⟩
    · rw [iterationCount_append]; simp [iterationCount] at h2 ⊢; omega
    · unfold restartCount at hr1 ⊢
      rw [List.countP_append, hr1]; simp
    · intro x hard hm
      simp only [List.mem_append, List.mem_singleton, reduceCtorEq, false_or] at hm
      exact absurd hm (hno _ h3 _ _)
  · refine ⟨?_, ?_, s1, h1, ?_⟩
    · rw [iterationCount_append, iterationCount_append]; simp [iterationCount] at h2 ⊢; omega
    · unfold restartCount at hr1 ⊢
      rw [List.countP_append, List.countP_append, hr1]; simp
    · intro x hard hm
      simp only [List.mem_append, List.mem_singleton, reduceCtorEq, false_or, or_false] at hm
      exact absurd hm (hno _ h3 _ _)
  · have hr2 := restartCount_inner h5
    refine ⟨?_, ?_, s1, h1, ?_⟩
    · rw [iterationCount_append, iterationCount_append, iterationCount_append]
      simp [iterationCount] at h2 h4 ⊢; omega
    · unfold restartCount at hr1 hr2 ⊢
      rw [List.countP_append, List.countP_append, List.countP_append, hr1, hr2]; simp
    · intro x hard hm
      simp only [List.mem_append, List.mem_singleton, reduceCtorEq, false_or, Event.guess.injEq] at hm
      rcases hm with (hm | hm) | hm
      · exact absurd hm (hno _ h3 _ _)
      · exact hm
      · exact absurd hm (hno _ h5 _ _)
  · have hr2 := restartCount_inner h5
    refine ⟨?_, ?_, s1, h1, ?_⟩
    · rw [iterationCount_append, iterationCount_append, iterationCount_append, iterationCount_append]
      simp [iterationCount] at h2 h4 ⊢; omega
    · unfold restartCount at hr1 hr2 ⊢
      rw [List.countP_append, List.countP_append, List.countP_append, List.countP_append, hr1, hr2]; simp
    · intro x hard hm
      simp only [List.mem_append, List.mem_singleton, reduceCtorEq, false_or, or_false,
        Event.guess.injEq] at hm
      rcases hm with (hm | hm) | hm
      · exact absurd hm (hno _ h3 _ _)
      · exact hm
      · exact absurd hm (hno _ h5 _ _)

/-- C22: the status returned tells how the run ended. `Converged`: the last iteration converged, no observer
asked to stop, the regularization strategy left its parameter alone, and success was reported.
`Terminated`: exactly when an observer asked for it, after the last iteration. `Diverged`: the last
iteration diverged, after a restart. `IterationCountLimitExceeded`: failure was reported, and either the
last round made as many iterations as allowed or an iteration of the only round diverged. -/
theorem C22_status (E : Env σ X) {limit : Nat} {s s' : σ} {tr : List (Event X)} {st : RunStatus}
    (h : (logged E).run limit (s, []) = .ok ((s', tr), st)) :
    (st = .converged → ∃ p, tr = p ++ [.iteration .converged, .observers false, .adjust false, .report true]) ∧
    (st = .terminated → ∃ p st', tr = p ++ [.iteration st', .observers true]) ∧
    (st = .diverged → restartCount tr = 1 ∧
      ∃ p, tr = p ++ [.iteration .diverged, .observers false, .adjust false, .report false]) ∧
    (st = .limitExceeded → ∃ p t, tr = p ++ t ++ [.report false] ∧ (∀ e ∈ t, Inner e) ∧
      ((iterationCount t = limit ∧ Event.observers true ∉ t) ∨ (restartCount tr = 0 ∧
        ∃ q, t = q ++ [.iteration .diverged, .observers false, .adjust false, .report false]))) := by
  obtain ⟨s1, t1, h1, h2, h3, hc, -⟩ := run_spec E h
  have hr1 := restartCount_inner h3
  rcases hc with ⟨rfl, hne, he⟩ | ⟨he, rfl, rfl⟩ | ⟨-, t2, h4, h5, ⟨rfl, he⟩ | ⟨rfl, he, rfl⟩⟩
  · cases st with
    | converged =>
      obtain ⟨p, rfl⟩ := he
      exact ⟨fun _ => ⟨_, (List.append_assoc ..).symm⟩, (fun h => by cases h), (fun h => by cases h),
        (fun h => by cases h)⟩
    | terminated =>
      obtain ⟨p, st', rfl⟩ := he
      exact ⟨(fun h => by cases h), fun _ => ⟨_, st', (List.append_assoc ..).symm⟩,
        (fun h => by cases h), (fun h => by cases h)⟩
    | diverged => exact absurd rfl hne
    | limitExceeded => exact he.elim
  · refine ⟨(fun h => by cases h), (fun h => by cases h), (fun h => by cases h), fun _ => ?_⟩
    refine ⟨_, t1, rfl, h3, ?_⟩
    rcases he with ⟨a, b, -, -⟩ | ⟨-, hq⟩
    · exact Or.inl ⟨a, b⟩
    · refine Or.inr ⟨?_, hq⟩
      unfold restartCount at hr1 ⊢
      rw [List.countP_append, List.countP_append, hr1]; simp
  · have hr2 := restartCount_inner h5
    cases st with
    | converged =>
      obtain ⟨p, rfl⟩ := he
      exact ⟨fun _ => ⟨_, (List.append_assoc ..).symm⟩, (fun h => by cases h), (fun h => by cases h),
        (fun h => by cases h)⟩
    | terminated =>
      obtain ⟨p, st', rfl⟩ := he
      exact ⟨(fun h => by cases h), fun _ => ⟨_, st', (List.append_assoc ..).symm⟩,
        (fun h => by cases h), (fun h => by cases h)⟩
    | diverged =>
      obtain ⟨-, p, hp⟩ := he
      refine ⟨(fun h => by cases h), (fun h => by cases h), fun _ => ⟨?_, ?_⟩, (fun h => by cases h)⟩
      · unfold restartCount at hr1 hr2 ⊢
        rw [List.countP_append, List.countP_append, List.countP_append, hr1, hr2]; simp
      · rw [hp]
        exact ⟨_ ++ p, by rw [← List.append_assoc]⟩
    | limitExceeded => exact he.elim
  · refine ⟨(fun h => by cases h), (fun h => by cases h), (fun h => by cases h), fun _ => ?_⟩
    refine ⟨_, t2, rfl, h5, ?_⟩
    rcases he with ⟨a, b, -, -⟩ | ⟨hf, -⟩
    · exact Or.inl ⟨a, b⟩
    · cases hf

/-- C22: an observer that asks to stop is obeyed at once: nothing is called after it. -/
theorem C22_stop (E : Env σ X) {limit : Nat} {s s' : σ} {tr : List (Event X)} {st : RunStatus}
    (h : (logged E).run limit (s, []) = .ok ((s', tr), st)) (hm : Event.observers true ∈ tr) :
    st = .terminated := by
  obtain ⟨-, -, -, -, -, -, hs⟩ := run_spec E h
  exact hs hm

/-- C22: a run returns if nothing it calls fails. -/
theorem C22_returns (E : Env σ X) (limit : Nat) (s : σ)
    (h1 : ∀ it s, ∃ r, E.iteration it s = .ok r) (h2 : ∀ n s, ∃ r, E.observers n s = .ok r)
    (h3 : ∀ s, ∃ r, E.adjust s = .ok r) (h4 : ∀ b s, ∃ r, E.reset b s = .ok r)
    (h5 : ∀ x b s, ∃ r, E.setInitialGuess x b s = .ok r) (h6 : ∀ b s, ∃ r, E.reportSuccess b s = .ok r) :
    ∃ r, E.run limit s = .ok r := by
  have hit : ∀ tried bias left it s, ∃ r, E.iterations tried bias left it s = .ok r := by
    intro tried bias left
    induction left with
    | zero => exact fun it s => ⟨_, rfl⟩
    | succ left ih =>
      intro it s
      unfold Env.iterations
      obtain ⟨r, e1⟩ := h1 it s
      obtain ⟨o, e2⟩ := h2 ((it + bias) % 4294967296) r.1
      rw [e1, bind_ok, e2, bind_ok]
      split
      · exact ⟨_, rfl⟩
      · obtain ⟨a, e3⟩ := h3 o.1
        rw [e3, bind_ok]
        split
        · split
          · exact ih _ _
          · obtain ⟨s4, e4⟩ := h6 true a.1
            rw [e4, bind_ok]
            exact ⟨_, rfl⟩
        · exact ih _ _
        · split
          · exact ih _ _
          · obtain ⟨s4, e4⟩ := h6 false a.1
            rw [e4, bind_ok]
            split <;> exact ⟨_, rfl⟩
  unfold Env.run
  obtain ⟨s1, e1⟩ := h4 false s
  obtain ⟨r, e2⟩ := hit false 0 limit 0 s1
  rw [e1, bind_ok]
  dsimp only
  rw [e2, bind_ok]
  split
  · exact ⟨_, rfl⟩
  · split
    · obtain ⟨s3, e3⟩ := h5 (E.solution s1) true r.1
      obtain ⟨r4, e4⟩ := hit true r.2.2 limit 0 s3
      rw [e3, bind_ok, e4, bind_ok]
      split
      · exact ⟨_, rfl⟩
      · obtain ⟨s5, e5⟩ := h6 false r4.1
        rw [e5, bind_ok]
        exact ⟨_, rfl⟩
    · obtain ⟨s5, e5⟩ := h6 false r.1
      rw [e5, bind_ok]
      exact ⟨_, rfl⟩

/-! ### C23: divergence -/

/-- C23 for components that allow a restart: if every iteration diverges, no observer stops the run and no
regularization parameter is changed, then `run` returns `Diverged` exactly when it has restarted, and
`IterationCountLimitExceeded` otherwise. -/
theorem C23_partial (E : Env σ X) {limit : Nat} (hl : 0 < limit) {s s' : σ} {tr : List (Event X)}
    {st : RunStatus} (h : (logged E).run limit (s, []) = .ok ((s', tr), st))
    (hd : ∀ r, Event.iteration r ∈ tr → r = .diverged) (ho : Event.observers true ∉ tr)
    (ha : Event.adjust true ∉ tr) :
    (restartCount tr = 1 ∧ st = .diverged) ∨ (restartCount tr = 0 ∧ st = .limitExceeded) := by
  obtain ⟨s1, t1, h1, h2, h3, hc, -⟩ := run_spec E h
  have hr1 := restartCount_inner h3
  rcases hc with ⟨rfl, hne, he⟩ | ⟨he, rfl, rfl⟩ | ⟨-, t2, h4, h5, ⟨rfl, he⟩ | ⟨rfl, he, rfl⟩⟩
  · exfalso
    cases st with
    | converged =>
      obtain ⟨p, rfl⟩ := he
      have := hd .converged (by simp)
      cases this
    | terminated =>
      obtain ⟨p, st', rfl⟩ := he
      exact ho (by simp)
    | diverged => exact hne rfl
    | limitExceeded => exact he
  · right
    refine ⟨?_, rfl⟩
    unfold restartCount at hr1 ⊢
    rw [List.countP_append, List.countP_append, hr1]; simp
  · have hr2 := restartCount_inner h5
    cases st with
    | converged =>
      exfalso
      obtain ⟨p, rfl⟩ := he
      have := hd .converged (by simp)
      cases this
    | terminated =>
      exfalso
      obtain ⟨p, st', rfl⟩ := he
      exact ho (by simp)
    | diverged =>
      left
      refine ⟨?_, rfl⟩
      unfold restartCount at hr1 hr2 ⊢
      rw [List.countP_append, List.countP_append, List.countP_append, hr1, hr2]; simp
    | limitExceeded => exact he.elim
  · exfalso
    rcases he with ⟨-, -, -, he⟩ | ⟨hf, -⟩
    · rcases he hl with he | ⟨r, hr, he⟩
      · exact ha (by simp [he])
      · exact hr (hd r (by simp [he]))
    · cases hf

/-! ### Invariants of a run -/

theorem iterations_inv (E : Env σ X) (I : σ → Prop)
    (hit : ∀ it s r, I s → E.iteration it s = .ok r → I r.1)
    (hob : ∀ n s r, I s → E.observers n s = .ok r → I r.1)
    (had : ∀ s r, I s → E.adjust s = .ok r → I r.1)
    (hrep : ∀ b s r, I s → E.reportSuccess b s = .ok r → I r) (tried : Bool) (bias : Nat) :
    ∀ (left it : Nat) (s s' : σ) (o : Option RunStatus) (it' : Nat), I s →
      E.iterations tried bias left it s = .ok (s', o, it') → I s' ∧
      (o = some .converged → ∃ it n s1 s2 s3 s4, I s1 ∧ E.iteration it s1 = .ok (s2, .converged) ∧
        E.observers n s2 = .ok (s3, false) ∧ E.adjust s3 = .ok (s4, false) ∧
        E.reportSuccess true s4 = .ok s') := by
  intro left
  induction left with
  | zero =>
    intro it s s' o it' hI h
    unfold Env.iterations at h
    cases h
    exact ⟨hI, fun h => by cases h⟩
  | succ left ih =>
    intro it s s' o it' hI h
    unfold Env.iterations at h
    obtain ⟨⟨s1, st⟩, h1, h⟩ := bind_inv h
    obtain ⟨⟨s2, stop⟩, h2, h⟩ := bind_inv h
    have hI1 := hit _ _ _ hI h1
    have hI2 := hob _ _ _ hI1 h2
    dsimp only at h hI1 hI2
    split at h
    · cases h
      exact ⟨hI2, fun h => by cases h⟩
    · rename_i hstop
      obtain ⟨⟨s3, ch⟩, h3, h⟩ := bind_inv h
      have hI3 := had _ _ hI2 h3
      dsimp only at h hI3
      cases st with
      | proceed => exact ih _ _ _ _ _ hI3 h
      | converged =>
        dsimp only at h
        split at h
        · exact ih _ _ _ _ _ hI3 h
        · rename_i hch
          obtain ⟨s4, h4, h⟩ := bind_inv h
          cases h
          refine ⟨hrep _ _ _ hI3 h4, fun _ => ⟨it, (it + bias) % 4294967296, s, s1, s2, s3, hI, h1, ?_, ?_, h4⟩⟩
          · rw [h2]
            simp only [Bool.not_eq_true] at hstop
            rw [hstop]
          · rw [h3]
            simp only [Bool.not_eq_true] at hch
            rw [hch]
      | diverged =>
        dsimp only at h
        split at h
        · exact ih _ _ _ _ _ hI3 h
        · obtain ⟨s4, h4, h⟩ := bind_inv h
          have hI4 := hrep _ _ _ hI3 h4
          split at h
          · cases h
            exact ⟨hI4, fun h => by cases h⟩
          · cases h
            exact ⟨hI4, fun h => by cases h⟩

theorem run_inv (E : Env σ X) (I : σ → Prop) {s : σ}
    (hreset : ∀ s1, E.reset false s = .ok s1 → I s1)
    (hit : ∀ it s r, I s → E.iteration it s = .ok r → I r.1)
    (hob : ∀ n s r, I s → E.observers n s = .ok r → I r.1)
    (had : ∀ s r, I s → E.adjust s = .ok r → I r.1)
    (hrep : ∀ b s r, I s → E.reportSuccess b s = .ok r → I r)
    (hguess : ∀ s1 s2 s3, E.reset false s = .ok s1 → I s2 →
      E.setInitialGuess (E.solution s1) true s2 = .ok s3 → I s3)
    {limit : Nat} {s' : σ} {st : RunStatus} (h : E.run limit s = .ok (s', st)) : I s' ∧
      (st = .converged → ∃ it n s1 s2 s3 s4, I s1 ∧ E.iteration it s1 = .ok (s2, .converged) ∧
        E.observers n s2 = .ok (s3, false) ∧ E.adjust s3 = .ok (s4, false) ∧
        E.reportSuccess true s4 = .ok s') := by
  unfold Env.run at h
  obtain ⟨s1, h1, h⟩ := bind_inv h
  obtain ⟨⟨s2, o, it⟩, h2, h⟩ := bind_inv h
  obtain ⟨a1, a2⟩ := iterations_inv E I hit hob had hrep _ _ _ _ _ _ _ _ (hreset s1 h1) h2
  dsimp only at h
  cases o with
  | some st' =>
    dsimp only at h
    cases h
    exact ⟨a1, fun hst => a2 (by rw [hst])⟩
  | none =>
    dsimp only at h
    split at h
    · obtain ⟨s3, h3, h⟩ := bind_inv h
      obtain ⟨⟨s4, o, it'⟩, h4, h⟩ := bind_inv h
      obtain ⟨b1, b2⟩ := iterations_inv E I hit hob had hrep _ _ _ _ _ _ _ _ (hguess s1 s2 s3 h1 a1 h3) h4
      dsimp only at h
      cases o with
      | some st' =>
        dsimp only at h
        cases h
        exact ⟨b1, fun hst => b2 (by rw [hst])⟩
      | none =>
        dsimp only at h
        obtain ⟨s5, h5, h⟩ := bind_inv h
        cases h
        exact ⟨hrep _ _ _ b1 h5, fun h => by cases h⟩
    · obtain ⟨s5, h5, h⟩ := bind_inv h
      cases h
      exact ⟨hrep _ _ _ a1 h5, fun h => by cases h⟩

end

/-! ### C88: what `Converged` means for the solution -/

section
variable {K D : Type} [Field K] [LinearOrder K] [IsStrictOrderedRing K]

/-- The line search is the simple one. -/
def SimpleSearch (P : Parts D K) (limit : Nat) : Prop :=
  ∀ d x f0 res, P.search d x f0 res = (do
    let r ← lineSearch P.F limit d x f0 res
    .ok (r.1, r.2.1))

/-- The invariant: nothing is worse than at the start. -/
theorem run_residual {P : Parts D K} {tl : Nat} (hs : SimpleSearch P tl) {s s' : Perf D K}
    (hu : PerfUsed P s) {observers : Nat → Perf D K → Res Bool} {limit : Nat} {st : RunStatus}
    (h : (P.env observers).run limit s = .ok (s', st)) :
    (∀ f0, P.F.map s.x = .ok f0 → ∃ f, P.F.map s'.x = .ok f ∧ normSq f ≤ normSq f0) ∧
    (st = .converged → 0 ≤ s.est.absTol → 0 ≤ s.est.relTol →
      ∃ f, P.F.map s'.x = .ok f ∧ ∀ r ∈ f, |r| ≤ s.est.absTol) := by
  have hP : Honest P := C21_simple P tl hs
  have key := run_inv (P.env observers) (fun t : Perf D K => Consistent P t ∧
      t.est.absTol = s.est.absTol ∧ t.est.relTol = s.est.relTol ∧
      ∀ f0, P.F.map s.x = .ok f0 → ∃ f, P.F.map t.x = .ok f ∧ normSq f ≤ normSq f0)
    (s := s) ?_ ?_ ?_ ?_ ?_ ?_ h
  · obtain ⟨⟨-, -, -, k1⟩, k2⟩ := key
    refine ⟨k1, fun hst ha hr => ?_⟩
    obtain ⟨it, n, s1, s2, s3, s4, ⟨c1, c2, c3, -⟩, e1, e2, e3, e4⟩ := k2 hst
    obtain ⟨-, g2, f0, d, -, -, g5, -, -, -, g9⟩ := iteration_ok hP c1 e1
    obtain ⟨b, -, e2⟩ := bind_inv e2
    cases e2
    cases e3
    cases e4
    refine ⟨s2.f, g2, ?_⟩
    have hconv : s2.est.status = .converged := by
      split at g9
      · cases g9
      · exact g9.symm
    have := ((C20_converged g5 (by rw [c2]; exact ha) (by rw [c3]; exact hr)).1 hconv).1
    rw [c2] at this
    exact this
  · intro s1 h1
    cases h1
    exact ⟨used_consistent hP (.reset false hu), rfl, rfl, fun f0 hf => ⟨f0, hf, le_refl _⟩⟩
  · rintro it t ⟨r, st'⟩ ⟨c1, c2, c3, c4⟩ h1
    obtain ⟨-, g2, f1, d, g3, -, g5, g6, g7, -, -⟩ := iteration_ok hP c1 h1
    obtain ⟨q1, q2, q3, -⟩ := ((C20_history _ [] _ _).2.2.1 _ g5).2
    refine ⟨fun _ => g2, by rw [q1, c2], by rw [q2, c3], fun f0 hf => ⟨r.f, g2, ?_⟩⟩
    obtain ⟨f, e1, e2⟩ := c4 f0 hf
    rw [g3] at e1
    cases e1
    by_cases hz : r.ratio = 0
    · rw [(g6 hz).1]
      exact e2
    · rw [hs] at g7
      obtain ⟨⟨r', f', n⟩, h2, h3⟩ := bind_inv g7
      cases h3
      exact le_trans (le_of_lt ((C19_search h2).2.2 hz).2.1) e2
  · intro n t r hI h1
    obtain ⟨b, -, h1⟩ := bind_inv h1
    cases h1
    exact hI
  · intro t r hI h1
    cases h1
    exact hI
  · intro b t r hI h1
    cases h1
    exact hI
  · rintro s1 s2 s3 h1 ⟨c1, c2, c3, c4⟩ h3
    cases h1
    cases h3
    exact ⟨(fun h => by cases h), c2, c3, fun f0 hf => ⟨f0, hf, le_refl _⟩⟩

/-- C88: if `run` returns `Converged`, every component of the mapping at the solution is within the absolute
tolerance. -/
theorem C88_converged {P : Parts D K} {tl : Nat} (hs : SimpleSearch P tl) {s s' : Perf D K}
    (hu : PerfUsed P s) {observers : Nat → Perf D K → Res Bool} {limit : Nat}
    (h : (P.env observers).run limit s = .ok (s', .converged)) (ha : 0 ≤ s.est.absTol)
    (hr : 0 ≤ s.est.relTol) : ∃ f, P.F.map s'.x = .ok f ∧ ∀ r ∈ f, |r| ≤ s.est.absTol :=
  (run_residual hs hu h).2 rfl ha hr

/-- C88: whatever `run` returns, the residual of the solution is not larger than that of the initial
guess, in the Euclidean norm. -/
theorem C88_decrease {P : Parts D K} {tl : Nat} (hs : SimpleSearch P tl) {s s' : Perf D K}
    (hu : PerfUsed P s) {observers : Nat → Perf D K → Res Bool} {limit : Nat} {st : RunStatus}
    (h : (P.env observers).run limit s = .ok (s', st)) {f0 : List K} (hf : P.F.map s.x = .ok f0) :
    ∃ f, P.F.map s'.x = .ok f ∧ normSq f ≤ normSq f0 :=
  (run_residual hs hu h).1 f0 hf

/-! ### C87: affine systems -/

theorem used_prev {k : DirKind} (hk : k = .simple ∨ k = .const) {pk : ProvKind} {F : Mapping K} {dx : K}
    {s : Dir K} (h : Used k pk F dx s) : s.prev = none := by
  induction h with
  | new => rfl
  | @reset s hard _ ih =>
    unfold Dir.reset
    rcases hk with rfl | rfl <;> cases hard <;> exact ih
  | report success _ ih =>
    unfold Dir.reportSuccess
    rcases hk with rfl | rfl <;> exact ih
  | @call s s' x0 f0 d it _ _ _ h ih =>
    unfold Dir.direction at h
    rcases hk with rfl | rfl
    · unfold Dir.simple at h
      obtain ⟨p, -, h⟩ := bind_inv h
      obtain ⟨lu, -, h⟩ := bind_inv h
      obtain ⟨r, -, h⟩ := bind_inv h
      cases h
      exact ih
    · unfold Dir.const at h
      obtain ⟨p, h1, h⟩ := bind_inv h
      obtain ⟨r, -, h⟩ := bind_inv h
      cases h
      split at h1
      · cases h1
        exact ih
      · obtain ⟨p, -, h1⟩ := bind_inv h1
        obtain ⟨lu, -, h1⟩ := bind_inv h1
        cases h1
        exact ih

theorem reset_prev {k : DirKind} {pk : ProvKind} {F : Mapping K} {dx : K} {s : Dir K}
    (h : Used k pk F dx s) (hard : Bool) : (s.reset k hard).prev = none := by
  by_cases hk : k = .simple ∨ k = .const
  · exact used_prev hk (.reset hard h)
  · unfold Dir.reset
    cases k <;> first | exact absurd (Or.inl rfl) hk | exact absurd (Or.inr rfl) hk | rfl

/-- The point remembered by the exact directions -/
theorem direction_prev {k : DirKind} (hk : k = .simple ∨ k = .const ∨ k = .broyden ∨ k = .fakeBroyden)
    {F : Mapping K} {dx : K} {s s' : Dir K} {x0 f0 d : List K} {it : Nat}
    (h : s.direction k F dx none x0 f0 it = .ok (s', d)) :
    s'.prev = s.prev ∨ s'.prev = some (x0, f0) := by
  unfold Dir.direction at h
  rcases hk with rfl | rfl | rfl | rfl
  · unfold Dir.simple at h
    obtain ⟨p, -, h⟩ := bind_inv h
    obtain ⟨lu, -, h⟩ := bind_inv h
    obtain ⟨r, -, h⟩ := bind_inv h
    cases h
    exact Or.inl rfl
  · unfold Dir.const at h
    obtain ⟨p, h1, h⟩ := bind_inv h
    obtain ⟨r, -, h⟩ := bind_inv h
    cases h
    split at h1
    · cases h1
      exact Or.inl rfl
    · obtain ⟨p, -, h1⟩ := bind_inv h1
      obtain ⟨lu, -, h1⟩ := bind_inv h1
      cases h1
      exact Or.inl rfl
  · unfold Dir.broyden at h
    obtain ⟨p, -, h⟩ := bind_inv h
    obtain ⟨lu, -, h⟩ := bind_inv h
    obtain ⟨r, -, h⟩ := bind_inv h
    cases h
    exact Or.inr rfl
  · unfold Dir.fakeBroyden at h
    obtain ⟨p, -, h⟩ := bind_inv h
    obtain ⟨lu, -, h⟩ := bind_inv h
    obtain ⟨r, -, h⟩ := bind_inv h
    cases h
    exact Or.inr rfl

/-- The exact step of `C24_newton`, as the line search takes it -/
theorem exact_step {n : Nat} {A : Nat → Nat → K} {b : Nat → K} {x0 d : List K} (hx : x0.length = n)
    (h : (affine n A b).map (List.zipWith (· + ·) x0 d) = .ok (List.replicate n 0)) :
    n ≤ d.length ∧ addScaled x0 d 1 = .ok (List.zipWith (· + ·) x0 d) := by
  have hl : (List.zipWith (· + ·) x0 d).length = n := by
    unfold affine at h
    dsimp only at h
    split at h
    · assumption
    · cases h
  rw [List.length_zipWith] at hl
  have hd : n ≤ d.length := by omega
  obtain ⟨r, h1, h2, h3⟩ := addScaled_ok (x := x0) (dir := d) (by omega) (1 : K)
  refine ⟨hd, ?_⟩
  rw [h1]
  congr 1
  apply ext_getD (by rw [h2, List.length_zipWith]; omega)
  intro i hi
  rw [List.length_zipWith] at hi
  rw [h3 i (by omega), mul_one]
  have h4 : i < x0.length := by omega
  have h5 : i < d.length := by omega
  simp [List.getD_eq_getElem?_getD, h4, h5]

theorem truncations_returns {F : Mapping K} {dir x0 : List K} {n2 : K}
    (h : ∀ a, ∃ x f, addScaled x0 dir a = .ok x ∧ F.map x = .ok f) :
    ∀ (left : Nat) (alpha : K) (s : Search K), ∃ r, truncations F dir x0 n2 left alpha s = .ok r := by
  intro left
  induction left with
  | zero => exact fun _ _ => ⟨_, rfl⟩
  | succ left ih =>
    intro alpha s
    obtain ⟨x, f, h1, h2⟩ := h alpha
    unfold truncations
    rw [h1, bind_ok, h2, bind_ok]
    generalize (if n2 ≠ 0 ∧ normSq f / n2 < s.best
      then (⟨normSq f / n2, alpha, f, s.evaluations + 1⟩ : Search K)
      else { s with evaluations := s.evaluations + 1 }) = t
    dsimp only
    by_cases ht : t.best < 4 / 5
    · rw [if_pos ht]
      exact ⟨_, rfl⟩
    · rw [if_neg ht]
      exact ih _ _

theorem lineSearch_returns {F : Mapping K} {dir x0 : List K}
    (h : ∀ a, ∃ x f, addScaled x0 dir a = .ok x ∧ F.map x = .ok f) (limit : Nat) (f0 res : List K) :
    ∃ r, lineSearch F limit dir x0 f0 res = .ok r := by
  unfold lineSearch
  dsimp only
  obtain ⟨r1, h1⟩ := truncations_returns (n2 := normSq f0) h limit 1 ⟨1, 1, res, 0⟩
  rw [h1, bind_ok]
  split
  · obtain ⟨r2, h2⟩ := truncations_returns (n2 := normSq f0) h limit (-1) { r1.1 with alphaBest := -1 }
    rw [h2, bind_ok]
    split <;> exact ⟨_, rfl⟩
  · exact ⟨_, rfl⟩

variable {n : Nat} {A : Nat → Nat → K} {b : Nat → K} {dx : K} {k : DirKind} {pk : ProvKind}

/-- An iteration at a root changes nothing and converges. -/
theorem root_iteration (hdx : dx ≠ 0) (hA : Solvable n A)
    (hk : k = .simple ∨ k = .const ∨ k = .broyden ∨ k = .fakeBroyden) (tl : Nat)
    {s : Perf (Dir K) K} (hx : s.x.length = n)
    (hF : (affine n A b).map s.x = .ok (List.replicate n 0)) (hc : s.fValid = true → s.f = List.replicate n 0)
    (hcur : s.est.current = s.x) (ha : 0 ≤ s.est.absTol) (hr : 0 ≤ s.est.relTol)
    (hu : Used k pk (affine n A b) dx s.dir)
    (hprev : ∀ x f, s.dir.prev = some (x, f) →
      ∑ i ∈ Finset.range n, (s.x.getD i 0 - x.getD i 0) * (s.x.getD i 0 - x.getD i 0) ≠ 0) (it : Nat) :
    ∃ s', s.iteration (parts k (affine n A b) dx tl) it = .ok (s', .converged) ∧ s'.x = s.x := by
  obtain ⟨d', d, h1, h2⟩ := C24_newton hdx hA hk hu hx hF it hprev
  obtain ⟨hd, -⟩ := exact_step hx h2
  obtain ⟨⟨ratio, res, m⟩, h3⟩ := lineSearch_returns (F := affine n A b) (dir := d) (x0 := s.x) (by
    intro a
    obtain ⟨x, e1, e2, -⟩ := addScaled_ok (x := s.x) (dir := d) (by omega) a
    exact ⟨x, _, e1, affine_ok (by rw [e2, hx])⟩) tl (List.replicate n 0) (List.replicate n 0)
  have hz : normSq (List.replicate n (0 : K)) = 0 := by
    rw [normSq_zero_iff]
    intro x hx
    exact (List.mem_replicate.1 hx).2
  obtain ⟨rfl, rfl⟩ := C19_zero h3 (Or.inl hz)
  obtain ⟨x, e1, e2, -⟩ := addScaled_ok (x := s.x) (dir := d) (by omega) (0 : K)
  have hxs := addScaled_zero e1
  subst hxs
  obtain ⟨est, g1⟩ := ((C20_history s.est [] s.x (List.replicate n 0)).2.2.2).2 (by rw [hcur])
  have hst : est.status = .converged := by
    rw [C20_converged g1 ha hr]
    refine ⟨?_, ?_⟩
    · intro r hr
      rw [(List.mem_replicate.1 hr).2, abs_zero]
      exact ha
    · by_cases h0 : ∀ x ∈ s.est.current, x = 0
      · exact Or.inl h0
      · push Not at h0
        obtain ⟨y, hy, hne⟩ := h0
        refine Or.inr (fun i _ => ⟨y, hy, ?_⟩)
        rw [hcur, sub_self, abs_zero]
        exact mul_nonneg hr (abs_nonneg y)
  have hres : ∃ s1 : Perf (Dir K) K, s.currentResidual (parts k (affine n A b) dx tl) = .ok s1 ∧
      s1.x = s.x ∧ s1.f = List.replicate n 0 ∧ s1.est = s.est ∧ s1.dir = s.dir := by
    unfold Perf.currentResidual
    split
    · rename_i hv
      exact ⟨s, rfl, rfl, hc hv, rfl, rfl⟩
    · rw [show (parts k (affine n A b) dx tl).F = affine n A b from rfl, hF, bind_ok]
      exact ⟨_, rfl, rfl, rfl, rfl, rfl⟩
  obtain ⟨s1, r1, r2, r3, r4, r5⟩ := hres
  unfold Perf.iteration
  rw [r1, bind_ok, r2, r3, r4, r5]
  have h1' : (parts k (affine n A b) dx tl).direction s.x (List.replicate n 0) it s.dir = .ok (d', d) := h1
  have h3' : (parts k (affine n A b) dx tl).search d s.x (List.replicate n 0) (List.replicate n 0)
      = .ok (0, List.replicate n 0) := by
    unfold parts
    dsimp only
    rw [h3, bind_ok]
  rw [h1', bind_ok]
  dsimp only
  rw [h3', bind_ok]
  dsimp only
  rw [e1, bind_ok, g1, bind_ok, hst, if_neg (by simp)]
  exact ⟨_, rfl, rfl⟩

/-- C87: on an affine system with nonzero leading minors and a pattern that satisfies the fill condition, a
solver with any of the four exact directions, either Jacobian provider and the simple line search returns
`Converged` with an exact root, from every initial guess and after every earlier use of the direction, if
the estimator's threshold for relative changes is off, the guess is zero, or the root is closer to the
guess than the threshold. Two iterations suffice. -/
theorem C87_partial (hdx : dx ≠ 0) (hA : Solvable n A)
    (hk : k = .simple ∨ k = .const ∨ k = .broyden ∨ k = .fakeBroyden) {tl limit : Nat} (htl : 0 < tl)
    (hlim : 2 ≤ limit) {s : Perf (Dir K) K} (hx : s.x.length = n)
    (hs : PerfUsed (parts k (affine n A b) dx tl) s) (hu : Used k pk (affine n A b) dx s.dir)
    (ha : 0 ≤ s.est.absTol) (hr : 0 ≤ s.est.relTol)
    (hthr : ∀ root, (affine n A b).map root = .ok (List.replicate n 0) →
      s.est.relMax ≤ 0 ∨ (∀ x ∈ s.x, x = 0) ∨
        ∀ i, i < n → ∃ x ∈ s.x, |root.getD i 0 - s.x.getD i 0| < s.est.relMax * |x|)
    {observers : Nat → Perf (Dir K) K → Res Bool} (hobs : ∀ m t, observers m t = .ok false) :
    ∃ s', ((parts k (affine n A b) dx tl).env observers).run limit s = .ok (s', .converged) ∧
      (affine n A b).map s'.x = .ok (List.replicate n 0) := by
  set P := parts k (affine n A b) dx tl with hP
  have hcons : Consistent P s := used_consistent (C21_simple P tl (fun _ _ _ _ => rfl)) hs
  obtain ⟨s0, hs0⟩ : ∃ s0, s0 = s.reset P false := ⟨_, rfl⟩
  have hu0 : Used k pk (affine n A b) dx s0.dir := by rw [hs0]; exact .reset false hu
  have hp0 : s0.dir.prev = none := by rw [hs0]; exact reset_prev hu false
  have hx0 : s0.x = s.x := by rw [hs0]; rfl
  have hcons0 : Consistent P s0 := by rw [hs0]; exact hcons
  have hest0 : s0.est = s.est.reset s.x := by rw [hs0]; rfl
  obtain ⟨f0, hf0, hfl⟩ := affine_total n A b s.x hx
  -- the end of the run, once an iteration has converged
  have hend : ∀ (l it : Nat) (t t' : Perf (Dir K) K), t.iteration P it = .ok (t', .converged) →
      (P.env observers).iterations false 0 (l + 1) it t =
        .ok ({ t' with dir := P.reportSuccess true t'.dir }, some .converged, it) := by
    intro l it t t' h
    unfold Env.iterations
    rw [show (P.env observers).iteration it t = t.iteration P it from rfl, h, bind_ok]
    have ho : (P.env observers).observers ((it + 0) % 4294967296) t' = .ok (t', false) := by
      unfold Parts.env
      dsimp only
      rw [hobs, bind_ok]
    rw [ho, bind_ok, if_neg (by simp), show (P.env observers).adjust t' = .ok (t', false) from rfl, bind_ok]
    dsimp only
    rw [if_neg (by simp)]
    rfl
  have hrun : ∀ t it, (P.env observers).iterations false 0 limit 0 s0 = .ok (t, some .converged, it) →
      (P.env observers).run limit s = .ok (t, .converged) := by
    intro t it h
    unfold Env.run
    rw [show (P.env observers).reset false s = .ok s0 from by rw [hs0]; rfl, bind_ok]
    dsimp only
    rw [h, bind_ok]
  obtain ⟨l, rfl⟩ : ∃ l, limit = l + 2 := ⟨limit - 2, by omega⟩
  by_cases hz : normSq f0 = 0
  · -- the guess is a root
    have hf00 : f0 = List.replicate n 0 := by
      rw [normSq_zero_iff] at hz
      exact List.eq_replicate_iff.2 ⟨hfl, hz⟩
    subst hf00
    obtain ⟨s1, h1, h2⟩ := root_iteration (k := k) (pk := pk) hdx hA hk tl (s := s0) (by rw [hx0, hx])
      (by rw [hx0]; exact hf0) (fun hv => by
        have := hcons0 hv
        rw [hx0, show P.F = affine n A b from rfl, hf0] at this
        exact (Except.ok.inj this).symm)
      (by rw [hest0, hx0]; rfl) (by rw [hest0]; exact ha) (by rw [hest0]; exact hr) hu0
      (fun _ _ h => by rw [hp0] at h; cases h) 0
    refine ⟨_, hrun _ 0 (hend _ 0 s0 s1 h1), ?_⟩
    dsimp only
    rw [h2, hx0]
    exact hf0
  · -- the first iteration leads to a root
    obtain ⟨d', d, h1, h2⟩ := C24_newton hdx hA hk hu0 hx hf0 0
      (fun _ _ h => by rw [hp0] at h; cases h)
    obtain ⟨hd, h3⟩ := exact_step hx h2
    obtain ⟨x1, hx1⟩ : ∃ x1, x1 = List.zipWith (· + ·) s.x d := ⟨_, rfl⟩
    rw [← hx1] at h2 h3
    have hpos : 0 < normSq f0 := lt_of_le_of_ne (normSq_nonneg _) (Ne.symm hz)
    have hzero : normSq (List.replicate n (0 : K)) = 0 := by
      rw [normSq_zero_iff]
      intro x hx
      exact (List.mem_replicate.1 hx).2
    have h4 := C19_full_step (F := affine n A b) (limit := tl) (dir := d) (x0 := s.x) (f0 := f0) f0 htl h3 h2
      (by rw [hzero]; linarith)
    have hl1 : x1.length = n := by
      rw [hx1, List.length_zipWith]
      omega
    obtain ⟨est, g1⟩ := ((C20_history s0.est [] x1 (List.replicate n 0)).2.2.2).2 (by
      rw [hest0]
      show x1.length ≤ s.x.length
      omega)
    obtain ⟨q1, q2, q3, -, -⟩ := (C20_history s0.est [] x1 (List.replicate n 0)).2.2.1 _ g1
    have hnd : est.status ≠ .diverged := by
      intro hdv
      obtain ⟨-, ⟨h5, r, h6, h7⟩ | ⟨h5, ⟨y, h6, h7⟩, i, h8, h9⟩⟩ := (C20_diverged g1).1 hdv
      · rw [(List.mem_replicate.1 h6).2, abs_zero] at h7
        exact absurd h7 (not_le.2 h5)
      · rw [hest0] at h5 h6 h9
        rcases hthr x1 h2 with h10 | h10 | h10
        · exact absurd h5 (not_lt.2 h10)
        · exact h7 (h10 y h6)
        · obtain ⟨x, h11, h12⟩ := h10 i (by omega)
          exact absurd (h9 x h11) (not_le.2 h12)
    have hres : ∃ v : Perf (Dir K) K, s0.currentResidual P = .ok v ∧ v.x = s.x ∧ v.f = f0 ∧
        v.est = s0.est ∧ v.dir = s0.dir ∧ v.fValid = true := by
      unfold Perf.currentResidual
      split
      · rename_i hv
        have := hcons0 hv
        rw [hx0, show P.F = affine n A b from rfl, hf0] at this
        exact ⟨s0, rfl, hx0, (Except.ok.inj this).symm, rfl, rfl, hv⟩
      · rw [hx0, show P.F = affine n A b from rfl, hf0, bind_ok]
        exact ⟨_, rfl, rfl, rfl, rfl, rfl, rfl⟩
    obtain ⟨v, r1, r2, r3, r4, r5, r6⟩ := hres
    have hit : ∃ s1 : Perf (Dir K) K, s0.iteration P 0 = .ok (s1, est.status) ∧ s1.x = x1 ∧
        s1.f = List.replicate n 0 ∧ s1.est = est ∧ s1.dir = d' := by
      unfold Perf.iteration
      have e1 : P.direction s.x f0 0 s0.dir = .ok (d', d) := h1
      have e2 : P.search d s.x f0 f0 = .ok (1, List.replicate n 0) := by
        rw [hP]
        unfold parts
        dsimp only
        rw [h4, bind_ok]
      rw [r1, bind_ok, r2, r3, r4, r5, e1, bind_ok]
      dsimp only
      rw [e2, bind_ok]
      dsimp only
      rw [h3, bind_ok, g1, bind_ok, if_neg (by simp)]
      exact ⟨_, rfl, rfl, rfl, rfl, rfl⟩
    obtain ⟨s1, i1, i2, i3, i4, i5⟩ := hit
    cases hst : est.status with
    | diverged => exact absurd hst hnd
    | converged =>
      rw [hst] at i1
      refine ⟨_, hrun _ 0 (hend _ 0 s0 s1 i1), ?_⟩
      dsimp only
      rw [i2]
      exact h2
    | proceed =>
      rw [hst] at i1
      -- the second iteration stays there
      obtain ⟨s2, j1, j2⟩ := root_iteration (k := k) (pk := pk) hdx hA hk tl (s := s1) (by rw [i2, hl1])
        (by rw [i2]; exact h2) (fun _ => i3) (by rw [i4, i2]; exact q1)
        (by rw [i4, q2, hest0]; exact ha) (by rw [i4, q3, hest0]; exact hr)
        (by rw [i5]; exact .call hu0 hx hf0 h1) (by
          intro x f hpr
          rw [i5] at hpr
          rcases direction_prev hk h1 with hp | hp
          · rw [hp, hp0] at hpr
            cases hpr
          · rw [hp] at hpr
            cases hpr
            intro hsum
            apply hz
            have hall : ∀ i, i < n → s1.x.getD i 0 = s.x.getD i 0 := by
              intro i hi
              have := (Finset.sum_eq_zero_iff_of_nonneg (fun i _ => mul_self_nonneg _)).1 hsum i
                (Finset.mem_range.2 hi)
              have := mul_self_eq_zero.1 this
              exact sub_eq_zero.1 this
            have : s1.x = s.x := by
              apply ext_getD (by rw [i2, hl1, hx])
              intro i hi
              exact hall i (by omega)
            rw [← this, i2, h2] at hf0
            cases hf0
            exact hzero) 1
      refine ⟨({ s2 with dir := P.reportSuccess true s2.dir } : Perf (Dir K) K), hrun _ 1 ?_, ?_⟩
      · unfold Env.iterations
        rw [show (P.env observers).iteration 0 s0 = s0.iteration P 0 from rfl, i1, bind_ok]
        have ho : (P.env observers).observers ((0 + 0) % 4294967296) s1 = .ok (s1, false) := by
          unfold Parts.env
          dsimp only
          rw [hobs, bind_ok]
        rw [ho, bind_ok, if_neg (by simp), show (P.env observers).adjust s1 = .ok (s1, false) from rfl,
          bind_ok]
        exact hend l 1 s1 s2 j1
      · dsimp only
        rw [j2, i2]
        exact h2

end

/-! ### Concrete cases -/

/-- A solver as constructed by the library, started at `x0` -/
def exStart (pk : ProvKind) (x0 : List ℚ) : Perf (Dir ℚ) ℚ :=
  (⟨[], [], false, 1, exEst, Dir.new (Prov.new pk)⟩ : Perf (Dir ℚ) ℚ).setInitialGuess
    (parts .simple exShift 1 8) x0 false

/-- C23 is false when the descent direction sees no use in a hard reset: every iteration (there is one)
diverges, and `run` returns `IterationCountLimitExceeded`, far below the limit. -/
theorem C23_false : ∃ s' tr, (logged ((parts .simple exShift 1 8).env fun _ _ => .ok false)).run 100
      (exStart .default [1], []) = .ok ((s', tr), .limitExceeded) ∧
    (∀ r, Event.iteration r ∈ tr → r = .diverged) ∧ iterationCount tr = 1 := by
  obtain ⟨⟨⟨s', tr⟩, st⟩, h1, h2⟩ := Verif.Res.exists_of_test
    (r := (logged ((parts .simple exShift 1 8).env fun _ _ => .ok false)).run 100 (exStart .default [1], []))
    (p := fun r => decide (r.1.2 = [.reset false, .iteration .diverged, .observers false, .adjust false,
      .report false, .report false] ∧ r.2 = .limitExceeded)) (by decide +kernel)
  obtain ⟨h2, h3⟩ := of_decide_eq_true h2
  dsimp only at h2 h3
  subst h2 h3
  exact ⟨s', _, h1, by simp, by simp [iterationCount]⟩

/-- With the other provider the same run restarts and returns `Diverged`: the hypotheses of `C23_partial`
are met. -/
example : ∃ s' tr, (logged ((parts .simple exShift 1 8).env fun _ _ => .ok false)).run 100
      (exStart .sparse [1], []) = .ok ((s', tr), .diverged) ∧
    (∀ r, Event.iteration r ∈ tr → r = .diverged) ∧ Event.observers true ∉ tr ∧
    Event.adjust true ∉ tr ∧ Event.guess [1] true ∈ tr := by
  obtain ⟨⟨⟨s', tr⟩, st⟩, h1, h2⟩ := Verif.Res.exists_of_test
    (r := (logged ((parts .simple exShift 1 8).env fun _ _ => .ok false)).run 100 (exStart .sparse [1], []))
    (p := fun r => decide (r.1.2 = [.reset false, .iteration .diverged, .observers false, .adjust false,
      .report false, .guess [1] true, .iteration .diverged, .observers false, .adjust false,
      .report false] ∧ r.2 = .diverged)) (by decide +kernel)
  obtain ⟨h2, h3⟩ := of_decide_eq_true h2
  dsimp only at h2 h3
  subst h2 h3
  exact ⟨s', _, h1, by simp, by simp, by simp, by simp⟩

/-- C87 is false without its condition on the threshold: on `x - 12` from 1, with the tolerances the library
sets, the solver reaches the root, takes the change for divergence and does not return `Converged`. -/
theorem C87_false : ∃ s', ((parts .simple exShift 1 8).env fun _ _ => .ok false).run 100
      (exStart .default [1]) = .ok (s', .limitExceeded) ∧ s'.x = [12] ∧ exShift.map [12] = .ok [0] := by
  obtain ⟨⟨s', st⟩, h1, h2⟩ := Verif.Res.exists_of_test
    (r := ((parts .simple exShift 1 8).env fun _ _ => .ok false).run 100 (exStart .default [1]))
    (p := fun r => decide (r.1.x = [12] ∧ r.2 = .limitExceeded)) (by decide +kernel)
  obtain ⟨h4, h3⟩ := of_decide_eq_true h2
  dsimp only at h4 h3
  subst h3
  exact ⟨s', h1, h4, by decide +kernel⟩

theorem exShift_solvable : Solvable 1 (fun _ _ => (1 : ℚ)) := by
  refine ⟨?_, ?_⟩
  · intro k hk
    interval_cases k <;> simp
  · intro r c h1 h2 _
    omega

/-- The hypotheses of `C87_partial` are met from 2. -/
example : ∃ s', ((parts .simple exShift 1 8).env fun _ _ => .ok false).run 100
      (exStart .default [2]) = .ok (s', .converged) ∧ exShift.map s'.x = .ok (List.replicate 1 0) := by
  refine C87_partial (pk := .default) (by norm_num) exShift_solvable (Or.inl rfl) (by norm_num) (by norm_num)
    rfl (.guess [2] false (.new _ _ _ _ _)) (.reset false .new) (by decide +kernel) (by decide +kernel) ?_
    (fun _ _ => rfl)
  intro root hroot
  right; right
  intro i hi
  have hi : i = 0 := by omega
  subst hi
  refine ⟨2, List.mem_singleton.2 rfl, ?_⟩
  have hl : root.length = 1 := by
    unfold affine at hroot
    dsimp only at hroot
    split at hroot
    · assumption
    · cases hroot
  rw [affine_ok hl] at hroot
  have := Except.ok.inj hroot
  simp at this
  have h12 : root.getD 0 0 = 12 := by
    rw [List.getD_eq_getElem?_getD]
    linarith
  rw [h12]
  show |(12 : ℚ) - 2| < 10 * |2|
  norm_num [abs_lt]

/-- The hypotheses of `C88_converged` and `C88_decrease` are met, by a mapping that is not affine: `x^2 - 2`
from 1, with the wide tolerance 1/100, in three iterations at least. -/
def exRoot : Mapping ℚ := ⟨1, 1, fun x => do
  let a ← at' x 0
  .ok [a * a - 2]⟩

example : ∃ s s' : Perf (Dir ℚ) ℚ, PerfUsed (parts .broyden exRoot (1 / 100) 8) s ∧
    SimpleSearch (parts .broyden exRoot (1 / 100) 8) 8 ∧ s.est.absTol = 1 / 100 ∧ s.x = [1] ∧
    ((parts .broyden exRoot (1 / 100) 8).env fun _ _ => .ok false).run 2 s = .ok (s', .limitExceeded) ∧
    ∃ s'', ((parts .broyden exRoot (1 / 100) 8).env fun _ _ => .ok false).run 100 s
      = .ok (s'', .converged) := by
  let s : Perf (Dir ℚ) ℚ := ⟨[1], [], false, 1, ⟨1 / 100, 1 / 100, 0, 0, [], 0, 0⟩, Dir.new (Prov.new .sparse)⟩
  obtain ⟨⟨s1, st1⟩, h1, h2⟩ := Verif.Res.exists_of_test
    (r := ((parts .broyden exRoot (1 / 100) 8).env fun _ _ => .ok false).run 2 s)
    (p := fun r => decide (r.2 = .limitExceeded)) (by decide +kernel)
  obtain ⟨⟨s2, st2⟩, h3, h4⟩ := Verif.Res.exists_of_test
    (r := ((parts .broyden exRoot (1 / 100) 8).env fun _ _ => .ok false).run 100 s)
    (p := fun r => decide (r.2 = .converged)) (by decide +kernel)
  have h2 := of_decide_eq_true h2
  have h4 := of_decide_eq_true h4
  dsimp only at h2 h4
  subst h2 h4
  exact ⟨s, s1, .new _ _ _ _ _, fun _ _ _ _ => rfl, rfl, rfl, h1, s2, h3⟩

end Verif.Alg
