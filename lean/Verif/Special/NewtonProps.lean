import Verif.Special.Lemmas
import Verif.Alg.SolverProps
import Mathlib.Analysis.SpecialFunctions.Pow.Real

/-! # Newton iterations with infinities and not-a-number (C122) -/

set_option linter.unusedSectionVars false

namespace Verif.Special

open Fl

section
variable {K D : Type} [Field K] [LinearOrder K] [IsStrictOrderedRing K] {n : Nat}

/-! ### Line search -/

/-- A quotient of sums of squares that is below a number is a number, and so is its numerator. -/
theorem quotient_lt {p q : Fl K} {b : K} (hp : p = nan ∨ 0 ≤ p) (hq : q = nan ∨ 0 ≤ q) (h : p / q < num b) :
    ∃ c, p / q = num c ∧ c < b ∧ ∃ d, p = num d := by
  cases p with
  | nan => simp at h
  | inf s =>
    cases q with
    | nan => simp at h
    | inf t => simp at h
    | num c =>
      simp only [reduceCtorEq, zero_def, num_le_inf, false_or, num_le] at hp hq
      subst hp
      rw [inf_div_num] at h
      simp [sgn, not_lt.mpr hq] at h
  | num d =>
    cases q with
    | nan => simp at h
    | inf t => exact ⟨0, rfl, by simpa using h, d, rfl⟩
    | num c =>
      simp only [reduceCtorEq, zero_def, false_or, num_le] at hp hq
      by_cases hc : c = 0
      · subst hc
        change div _ _ < _ at h
        by_cases hd : d = 0
        · simp [div, hd] at h
        · simp [div, hd, sgn, not_lt.mpr hp] at h
      · rw [num_div hc] at h ⊢
        exact ⟨_, rfl, by simpa using h, d, rfl⟩

theorem truncations_spec (F : V K n → V K n) (dir x0 : V K n) (f0Norm2 : Fl K)
    (h0 : f0Norm2 = nan ∨ 0 ≤ f0Norm2) :
    ∀ (left : Nat) (a : K) (s : Search K n) (b : K), s.best = num b →
      (truncations F dir x0 f0Norm2 left (num a) s).1 = s ∨
      ∃ b' a', b' < b ∧ (truncations F dir x0 f0Norm2 left (num a) s).1 =
        ⟨num b', num a', F (addScaled x0 dir (num a'))⟩ ∧ Numbers (F (addScaled x0 dir (num a'))) := by
  intro left
  induction left with
  | zero => intro a s b hb; exact .inl rfl
  | succ left ih =>
    intro a s b hb
    unfold truncations
    dsimp only
    by_cases hq : normSq (F (addScaled x0 dir (num a))) / f0Norm2 < s.best
    · simp only [if_pos hq]
      rw [hb] at hq
      obtain ⟨c, hc, hcb, d, hd⟩ := quotient_lt (normSq_spec _).1 h0 hq
      have hN := (normSq_spec _).2.1 d hd
      rw [hc]
      split
      · exact .inr ⟨c, a, hcb, rfl, hN⟩
      · rw [num_mul]
        rcases ih (a * (1 / 2)) ⟨num c, num a, F (addScaled x0 dir (num a))⟩ c rfl with h | ⟨b', a', h1, h2, h3⟩
        · exact .inr ⟨c, a, hcb, h, hN⟩
        · exact .inr ⟨b', a', h1.trans hcb, h2, h3⟩
    · simp only [if_neg hq]
      split
      · exact .inl rfl
      · rw [num_mul]
        exact ih (a * (1 / 2)) s b hb

/-- The line search keeps the point and the residual, or goes to a point where the mapping has numbers. -/
theorem lineSearch_spec (F : V K n → V K n) (limit : Nat) (dir x0 f0 : V K n) :
    lineSearch F limit dir x0 f0 f0 = (0, f0) ∨
    ∃ a, lineSearch F limit dir x0 f0 f0 = (num a, F (addScaled x0 dir (num a))) ∧
      Numbers (F (addScaled x0 dir (num a))) := by
  have h0 := (normSq_spec f0).1
  have run : ∀ (left : Nat) (a : K) (s : Search K n), s.best = 1 → s.residual = f0 →
      ((truncations F dir x0 (normSq f0) left (num a) s).2 = false →
        (truncations F dir x0 (normSq f0) left (num a) s).1.best = 1 →
          (truncations F dir x0 (normSq f0) left (num a) s).1 = s) ∧
      (¬ ((truncations F dir x0 (normSq f0) left (num a) s).2 = false ∧
        (truncations F dir x0 (normSq f0) left (num a) s).1.best = 1) →
        ∃ a', (truncations F dir x0 (normSq f0) left (num a) s).1.alphaBest = num a' ∧
          (truncations F dir x0 (normSq f0) left (num a) s).1.residual = F (addScaled x0 dir (num a')) ∧
          Numbers (F (addScaled x0 dir (num a')))) := by
    intro left a s hs hr
    rcases truncations_spec F dir x0 _ h0 left a s 1 hs with h | ⟨b', a', h1, h2, h3⟩
    · refine ⟨fun _ _ => h, fun hn => ?_⟩
      exfalso
      apply hn
      rw [h]
      refine ⟨?_, hs⟩
      have : ∀ (left : Nat) (a : Fl K) (s : Search K n),
          (truncations F dir x0 (normSq f0) left a s).1.best = 1 →
          (truncations F dir x0 (normSq f0) left a s).2 = false := by
        intro left
        induction left with
        | zero => intro a s _; rfl
        | succ left ih =>
          intro a s
          unfold truncations
          dsimp only
          split <;> split
          · rename_i h
            intro hb
            simp only at hb h
            rw [hb] at h
            rw [one_def, num_lt, lt_div_iff₀ (by norm_num)] at h
            norm_num at h
          · exact ih _ _
          · rename_i h
            intro hb
            simp only at hb h
            rw [hb] at h
            rw [one_def, num_lt, lt_div_iff₀ (by norm_num)] at h
            norm_num at h
          · exact ih _ _
      exact this _ _ _ (by rw [h]; exact hs)
    · rw [h2]
      refine ⟨fun _ hb => ?_, fun _ => ⟨a', rfl, rfl, h3⟩⟩
      exfalso
      simp only [one_def, num.injEq] at hb
      exact absurd hb h1.ne
  unfold lineSearch
  dsimp only
  rw [show (1 : Fl K) = num 1 from rfl, show (-num 1 : Fl K) = num (-1) from rfl]
  rw [show (num 1 : Fl K) = 1 from rfl] at *
  obtain ⟨r1, r2⟩ := run limit 1 ⟨1, 1, f0⟩ rfl rfl
  rw [show (num 1 : Fl K) = 1 from rfl] at r1 r2
  split
  · rename_i h
    have e1 := r1 h.1 h.2
    rw [e1]
    obtain ⟨q1, q2⟩ := run limit (-1) ⟨1, num (-1), f0⟩ rfl rfl
    split
    · rename_i h'
      rw [q1 h'.1 h'.2]
      exact .inl rfl
    · rename_i h'
      obtain ⟨a', e, e2, e3⟩ := q2 h'
      rw [e, e2]
      exact .inr ⟨a', rfl, e3⟩
  · rename_i h
    obtain ⟨a', e, e2, e3⟩ := r2 h
    rw [e, e2]
    exact .inr ⟨a', rfl, e3⟩

/-- If no quotient is below 1, the line search stays. -/
theorem lineSearch_stays (F : V K n → V K n) (limit : Nat) (dir x0 f0 res : V K n)
    (h : ∀ a : Fl K, ¬ normSq (F (addScaled x0 dir a)) / normSq f0 < 1) :
    lineSearch F limit dir x0 f0 res = (0, res) := by
  have run : ∀ (left : Nat) (a : Fl K) (s : Search K n), s.best = 1 →
      truncations F dir x0 (normSq f0) left a s = (s, false) := by
    intro left
    induction left with
    | zero => intro a s _; rfl
    | succ left ih =>
      intro a s hs
      unfold truncations
      dsimp only
      rw [hs, if_neg (h a)]
      rw [hs, if_neg]
      · exact ih _ _ hs
      · rw [one_def, num_lt, lt_div_iff₀ (by norm_num)]
        norm_num
  unfold lineSearch
  dsimp only
  rw [run _ _ _ rfl]
  simp only [and_self, if_true]
  rw [run _ _ _ rfl]
  simp

/-! ### What `Converged` means -/

theorem addScaled_zero {x d : V K n} (hx : Numbers x) (hd : Numbers d) : addScaled x d 0 = x := by
  funext i
  obtain ⟨a, ha⟩ := hx i
  obtain ⟨b, hb⟩ := hd i
  simp [addScaled, ha, hb, zero_def]

theorem addScaled_numbers {x d : V K n} (hx : Numbers x) (hd : Numbers d) (a : K) :
    Numbers (addScaled x d (num a)) := by
  intro i
  obtain ⟨b, hb⟩ := hx i
  obtain ⟨c, hc⟩ := hd i
  exact ⟨b + c * a, by simp [addScaled, hb, hc]⟩

/-- If the guess and the residual at the guess are numbers, and the linear solver gives numbers for numbers,
then whatever the mapping is elsewhere, a run ends at numbers where the residual is numbers; and if it reports
`Converged`, they are within the absolute tolerance. -/
theorem C122_newton_partial (P : Parts D K n) (obs : Nat → Perf D K n → Bool) {guess : V K n}
    (hx : Numbers guess) (hF : Numbers (P.F guess))
    (hdir : ∀ x it d, Numbers x → Numbers (P.F x) → Numbers (P.direction x (P.F x) it d).2)
    {hard : Bool} {limit : Nat} {s s' : Perf D K n} {st : Alg.RunStatus}
    (h : (P.env obs).run limit (s.setInitialGuess P guess hard) = .ok (s', st)) :
    Numbers s'.x ∧ Numbers (P.F s'.x) ∧
    (st = .converged → ∀ i, (P.F s'.x i).abs ≤ s.est.absTol) := by
  let I : Perf D K n → Prop := fun s1 => Numbers s1.x ∧ Numbers (P.F s1.x) ∧
    (s1.fValid = true → s1.f = P.F s1.x) ∧ s1.est.absTol = s.est.absTol
  have it_spec : ∀ it s1, I s1 → I (s1.iteration P it).1 ∧ (s1.iteration P it).1.f = P.F (s1.iteration P it).1.x ∧
      ((s1.iteration P it).2 = .converged → ∀ i, ((s1.iteration P it).1.f i).abs ≤ s.est.absTol) := by
    intro it s1 ⟨i1, i2, i3, i4⟩
    obtain ⟨s2, hs2⟩ : ∃ s2, s1.currentResidual P = s2 := ⟨_, rfl⟩
    have j : s2.x = s1.x ∧ s2.f = P.F s1.x ∧ s2.est = s1.est ∧ s2.fValid = true := by
      unfold Perf.currentResidual at hs2
      split at hs2
      · rename_i hv; subst hs2; exact ⟨rfl, i3 hv, rfl, hv⟩
      · subst hs2; exact ⟨rfl, rfl, rfl, rfl⟩
    obtain ⟨j1, j2, j3, j4⟩ := j
    unfold Perf.iteration
    dsimp only
    rw [hs2, j1, j2]
    have hd := hdir s1.x it s2.dir i1 i2
    generalize (P.direction s1.x (P.F s1.x) it s2.dir).2 = d at hd ⊢
    have key : ∃ y, addScaled s1.x d (lineSearch P.F P.limit d s1.x (P.F s1.x) (P.F s1.x)).1 = y ∧ Numbers y ∧
        Numbers (P.F y) ∧ (lineSearch P.F P.limit d s1.x (P.F s1.x) (P.F s1.x)).2 = P.F y := by
      rcases lineSearch_spec P.F P.limit d s1.x (P.F s1.x) with e | ⟨a, e, hn⟩
      · rw [e]
        exact ⟨_, rfl, by rw [addScaled_zero i1 hd]; exact i1, by rw [addScaled_zero i1 hd]; exact i2,
          by rw [addScaled_zero i1 hd]⟩
      · rw [e]
        exact ⟨_, rfl, addScaled_numbers i1 hd a, hn, rfl⟩
    obtain ⟨y, y1, y2, y3, y4⟩ := key
    rw [y1, y4]
    refine ⟨⟨y2, y3, fun _ => rfl, ?_⟩, rfl, ?_⟩
    · simp only [Est.setCurrentSolution]; rw [j3]; exact i4
    · intro hc i
      have hc' : (s2.est.setCurrentSolution y (P.F y)).status = .converged := by
        split at hc
        · cases hc
        · exact hc
      unfold Est.status at hc'
      split at hc'
      · rename_i ht
        have h1 := ht.1
        simp only [Est.setCurrentSolution] at h1
        rw [j3, i4] at h1
        rcases (infNorm_spec (P.F y)).2.2.1 i with e | e
        · obtain ⟨c, hc⟩ := y3 i
          rw [hc] at e
          cases e
        · exact Fl.trans e h1
      · split at hc'
        · cases hc'
        · split at hc' <;> cases hc'
  obtain ⟨a1, a2⟩ := Alg.run_inv (P.env obs) I
    (hreset := fun s1 e => by
      cases e
      exact ⟨hx, hF, (fun h => by cases h), rfl⟩)
    (hit := fun it s1 r hI e => by
      cases e
      exact (it_spec it s1 hI).1)
    (hob := fun _ s1 r hI e => by cases e; exact hI)
    (had := fun s1 r hI e => by cases e; exact hI)
    (hrep := fun b s1 r hI e => by cases e; exact hI)
    (hguess := fun s1 s2 s3 e1 hI e => by
      cases e1
      cases e
      exact ⟨hx, hF, (fun h => by cases h), hI.2.2.2⟩) h
  refine ⟨a1.1, a1.2.1, fun hst i => ?_⟩
  obtain ⟨it, m, s1, s2, s3, s4, hI, e1, e2, e3, e4⟩ := a2 hst
  obtain ⟨-, b2, b3⟩ := it_spec it s1 hI
  have e1' : s1.iteration P it = (s2, .converged) := by
    change Except.ok _ = Except.ok _ at e1
    exact Except.ok.inj e1
  rw [e1'] at b2 b3
  have e2' : s3 = s2 := by
    change Except.ok _ = Except.ok _ at e2
    exact (Prod.mk.inj (Except.ok.inj e2)).1.symm
  have e3' : s4 = s3 := by
    change Except.ok _ = Except.ok _ at e3
    exact (Prod.mk.inj (Except.ok.inj e3)).1.symm
  have e4' : s' = { s4 with dir := P.reportSuccess true s4.dir } := by
    change Except.ok _ = Except.ok _ at e4
    exact (Except.ok.inj e4).symm
  subst e3' e2'
  rw [e4']
  simp only at b2 b3 ⊢
  rw [← b2]
  exact b3 trivial i

/-- The relative error is zero after a step of ratio zero. -/
theorem stay_difference (x d : V K n) : infNorm (addScaled x d 0 - x) = 0 := by
  rcases (infNorm_spec (addScaled x d 0 - x)).2.2.2 with h | ⟨i, hi, h⟩
  · exact h
  · rw [h]
    have : (addScaled x d 0 - x) i = (x i + d i * 0) - x i := rfl
    rw [this] at hi ⊢
    have hm : d i * 0 = num 0 ∨ d i * 0 = (nan : Fl K) := by
      cases d i with
      | num a => left; simp [zero_def]
      | inf s => right; change mul _ _ = _; simp [mul]
      | nan => right; simp
    rcases hm with e | e
    · rw [e] at hi ⊢
      cases hx : x i with
      | num a => simp [zero_def]
      | inf s =>
        rw [hx] at hi
        exfalso
        apply hi
        change (add (add (inf s) (num 0)) (neg (inf s)) : Fl K) = nan
        cases s <;> simp [add, neg]
      | nan => rw [hx] at hi; exact absurd (by simp) hi
    · rw [e] at hi
      exact absurd (by simp) hi

/-- The status after a step of ratio zero with a residual of norm zero. -/
theorem stay_converged (e : Est K n) (d res : V K n) (ha : 0 ≤ e.absTol) (hr : 0 ≤ e.relTol)
    (hres : infNorm res = 0) : (e.setCurrentSolution (addScaled e.current d 0) res).status = .converged := by
  unfold Est.status Est.setCurrentSolution
  dsimp only
  rw [if_pos]
  refine ⟨by rw [hres]; exact ha, ?_⟩
  split
  · rename_i h
    rw [stay_difference]
    suffices (0 : Fl K) / infNorm e.current = 0 by rw [this]; exact hr
    cases hn : infNorm e.current with
    | num a =>
      rw [hn] at h
      simp only [zero_def, num_lt] at h
      rw [zero_def, num_div h.ne', zero_div]
    | inf s => rfl
    | nan => exact absurd hn (infNorm_spec _).1
  · exact hr

/-- A run whose first line search finds nothing and whose first residual has norm zero ends at once and reports
`Converged`. -/
theorem run_stays (P : Parts D K n) (obs : Nat → Perf D K n → Bool) (s : Perf D K n) (guess : V K n)
    (hard : Bool) {limit : Nat} (hl : 0 < limit) (hobs : ∀ k s, obs k s = false)
    (ha : 0 ≤ s.est.absTol) (hr : 0 ≤ s.est.relTol)
    (hF : infNorm (P.F guess) = 0)
    (hs : ∀ d, lineSearch P.F P.limit (P.direction guess (P.F guess) 0 d).2 guess (P.F guess) (P.F guess)
      = (0, P.F guess)) :
    ∃ s' d, (P.env obs).run limit (s.setInitialGuess P guess hard) = .ok (s', .converged) ∧
      s'.f = P.F guess ∧ s'.x = addScaled guess (P.direction guess (P.F guess) 0 d).2 0 := by
  obtain ⟨limit, rfl⟩ : ∃ l, limit = l + 1 := ⟨limit - 1, by omega⟩
  unfold Alg.Env.run
  simp only [Parts.env]
  simp only [Res.bind_ok]
  unfold Alg.Env.iterations
  simp only [Res.bind_ok, hobs, Bool.false_eq_true, if_false]
  have e : (s.setInitialGuess P guess hard).reset P false =
      ⟨guess, s.f, false, 1, s.est.reset guess, P.dirReset false (P.dirReset hard s.dir)⟩ := rfl
  rw [e]
  generalize P.dirReset false (P.dirReset hard s.dir) = d
  have hst : ((⟨guess, s.f, false, 1, s.est.reset guess, d⟩ : Perf D K n).iteration P 0) =
      (⟨addScaled guess (P.direction guess (P.F guess) 0 d).2 0, P.F guess, true, 0,
        (s.est.reset guess).setCurrentSolution
          (addScaled guess (P.direction guess (P.F guess) 0 d).2 0) (P.F guess),
        (P.direction guess (P.F guess) 0 d).1⟩, .converged) := by
    unfold Perf.iteration Perf.currentResidual
    simp only [Bool.false_eq_true, if_false]
    rw [hs d]
    have := stay_converged (s.est.reset guess) (P.direction guess (P.F guess) 0 d).2 (P.F guess) ha hr hF
    have hcur : (s.est.reset guess).current = guess := rfl
    rw [hcur] at this
    simp only [this]
    simp
  rw [hst]
  exact ⟨_, d, rfl, rfl, rfl⟩

/-- If the residual at the guess is not a number in any component, the solver reports `Converged` after one
iteration, whatever the mapping is elsewhere and whatever the direction, with that residual. -/
theorem C122_undefined (P : Parts D K n) (obs : Nat → Perf D K n → Bool) (s : Perf D K n) (guess : V K n)
    (hard : Bool) {limit : Nat} (hn : 0 < n) (hl : 0 < limit) (hobs : ∀ k s, obs k s = false)
    (ha : 0 ≤ s.est.absTol) (hr : 0 ≤ s.est.relTol) (hF : Nowhere (P.F guess)) :
    ∃ s' d, (P.env obs).run limit (s.setInitialGuess P guess hard) = .ok (s', .converged) ∧
      Nowhere s'.f ∧ s'.x = addScaled guess (P.direction guess (P.F guess) 0 d).2 0 := by
  obtain ⟨s', d, h1, h2, h3⟩ := run_stays P obs s guess hard hl hobs ha hr (infNorm_nowhere hF) fun d =>
    lineSearch_stays _ _ _ _ _ _ fun a => by
      rw [(normSq_spec (P.F guess)).2.2.mpr ⟨⟨0, hn⟩, hF _⟩]
      simp
  exact ⟨s', d, h1, by rw [h2]; exact hF, h3⟩

/-- If the guess is a root but the linear solver gives no numbers, the solver reports `Converged` and its
solution is no numbers. -/
theorem C122_singular (P : Parts D K n) (obs : Nat → Perf D K n → Bool) (s : Perf D K n) (guess : V K n)
    (hard : Bool) {limit : Nat} (hl : 0 < limit) (hobs : ∀ k s, obs k s = false)
    (ha : 0 ≤ s.est.absTol) (hr : 0 ≤ s.est.relTol) (hF : ∀ i, P.F guess i = 0)
    (hd : ∀ d, Nowhere (P.direction guess (P.F guess) 0 d).2) :
    ∃ s', (P.env obs).run limit (s.setInitialGuess P guess hard) = .ok (s', .converged) ∧ Nowhere s'.x := by
  have hz : infNorm (P.F guess) = 0 := by
    rcases (infNorm_spec (P.F guess)).2.2.2 with h | ⟨i, -, h⟩
    · exact h
    · rw [h, hF i]
      simp [zero_def]
  have hq : normSq (P.F guess) = 0 := by
    have : P.F guess = fun _ => 0 := funext hF
    rw [this]
    unfold normSq
    have : ∀ l : List (Fl K), (∀ x ∈ l, x = 0) → l.foldl (fun s x => s + x * x) 0 = 0 := by
      intro l hl
      induction l with
      | nil => rfl
      | cons x l ih =>
        rw [List.foldl_cons, hl x (by simp), show (0 : Fl K) + 0 * 0 = 0 by simp [zero_def]]
        exact ih fun x hx => hl x (by simp [hx])
    exact this _ (by simp)
  obtain ⟨s', d, h1, -, h3⟩ := run_stays P obs s guess hard hl hobs ha hr hz fun d =>
    lineSearch_stays _ _ _ _ _ _ fun a h => by
      rw [hq] at h
      obtain ⟨c, hc, -, e, he⟩ := quotient_lt (b := 1) (normSq_spec _).1 (.inr (by simp [zero_def])) h
      rw [he] at hc
      change div _ _ = _ at hc
      unfold div at hc
      simp only [if_true] at hc
      split at hc <;> cases hc
  refine ⟨s', h1, fun i => ?_⟩
  rw [h3]
  simp [addScaled, hd d i]

end

/-! ### Examples -/

/-- Newton direction for one unknown with a finite difference of increment `1e-6`
(SimpleNewtonDescentDirection.h:33-53, computeJacobian.h:41-52 in one dimension) -/
noncomputable def scalarDirection (F : V ℝ 1 → V ℝ 1) (x f : V ℝ 1) : V ℝ 1 := fun i =>
  f i / ((F (fun i => x i + num (1 / 1000000)) i - f i) / num (1 / 1000000)) * num (-1)

/-- A solver for one unknown with the simple direction -/
noncomputable def scalarParts (F : V ℝ 1 → V ℝ 1) : Parts Unit ℝ 1 where
  F := F
  dirReset _ d := d
  direction x f _ d := (d, scalarDirection F x f)
  hardResetMayHelp _ := false
  reportSuccess _ d := d
  limit := 10

/-- A performer with default tolerances -/
noncomputable def fresh : Perf Unit ℝ 1 :=
  ⟨fun _ => 0, fun _ => 0, false, 1,
    ⟨num (1 / 1000000), num (1 / 1000000), num (10 ^ 20), num 10, fun _ => 0, 0, 0⟩, ()⟩

/-- `sqrt( x ) - 1` -/
noncomputable def root (x : V ℝ 1) : V ℝ 1 := fun i =>
  match x i with
  | num a => if 0 ≤ a then num (Real.sqrt a - 1) else nan
  | inf false => inf false
  | _ => nan

/-- From the guess `-1`, the equation `sqrt( x ) = 1` is reported as solved; neither the residual nor the
solution is a number. -/
theorem C122_false : ∃ s', ((scalarParts root).env fun _ _ => false).run 100
      (fresh.setInitialGuess (scalarParts root) (fun _ => num (-1)) true) = .ok (s', .converged) ∧
    s'.f 0 = nan ∧ s'.x 0 = nan := by
  have hF : Nowhere ((scalarParts root).F fun _ => num (-1)) := by
    intro i
    simp [scalarParts, root]
  obtain ⟨s', d, h1, h2, h3⟩ := C122_undefined (scalarParts root) (fun _ _ => false) fresh
    (fun _ => num (-1)) true (by norm_num) (limit := 100) (by norm_num) (fun _ _ => rfl)
    (by simp [fresh, zero_def]) (by simp [fresh, zero_def]) hF
  refine ⟨s', h1, h2 0, ?_⟩
  rw [h3]
  have : (scalarParts root).direction (fun _ => num (-1)) ((scalarParts root).F fun _ => num (-1)) 0 d =
      (d, scalarDirection root (fun _ => num (-1)) ((scalarParts root).F fun _ => num (-1))) := rfl
  rw [this]
  simp only [addScaled, scalarDirection]
  rw [hF 0]
  simp

/-- The equation `0 = 0`, of which every guess is a root, is reported as solved, and the solution is not a
number. -/
theorem C122_singular_false : ∃ s', ((scalarParts fun _ _ => 0).env fun _ _ => false).run 100
      (fresh.setInitialGuess (scalarParts fun _ _ => 0) (fun _ => num 5) true) = .ok (s', .converged) ∧
    s'.x 0 = nan := by
  obtain ⟨s', h1, h2⟩ := C122_singular (scalarParts fun _ _ => 0) (fun _ _ => false) fresh
    (fun _ => num 5) true (limit := 100) (by norm_num) (fun _ _ => rfl)
    (by simp [fresh, zero_def]) (by simp [fresh, zero_def]) (fun _ => rfl) (fun d i => by
      simp only [scalarParts, scalarDirection, zero_def, num_sub, sub_self]
      rw [num_div (by norm_num), zero_div]
      change mul (div (num 0) (num 0)) _ = _
      simp [div, mul])
  exact ⟨s', h1, h2 0⟩

/-- The conditions of `C122_newton_partial` are met by `sqrt( x ) = 1` from the guess `4`. -/
example : Numbers (fun _ => num (4 : ℝ) : V ℝ 1) ∧ Numbers (root fun _ => num 4) := by
  refine ⟨fun i => ⟨4, rfl⟩, fun i => ⟨Real.sqrt 4 - 1, ?_⟩⟩
  simp [root]

end Verif.Special
