import Verif.Special.Lemmas
import Verif.Alg.SolverProps
import Verif.Alg.UpdateProps

/-! # On numbers, the Newton solver is that of `Verif.Alg` (C122) -/

set_option linter.unusedSectionVars false

namespace Verif.Special

open Fl Verif.Res

section
variable {K D : Type} [Field K] [LinearOrder K] [IsStrictOrderedRing K] {n : Nat}

/-- A vector of numbers -/
def emb (n : Nat) (l : List K) : V K n := fun i => num (l.getD i 0)

theorem ofFn_emb {l : List K} (h : l.length = n) : List.ofFn (emb n l) = l.map num := by
  subst h
  apply List.ext_getElem
  · simp
  · intro i h1 h2
    have : i < l.length := by simpa using h2
    simp [emb, List.getElem?_eq_getElem this]

theorem foldl_max_num (l : List K) (a : K) : (l.map num).foldl (fun r x => Fl.max r x.abs) (num a) =
    num (l.foldl (fun m x => max m |x|) a) := by
  induction l generalizing a with
  | nil => rfl
  | cons x l ih =>
    rw [List.map_cons, List.foldl_cons, List.foldl_cons, ← ih]
    congr 1
    unfold Fl.max
    rw [num_abs, max_def]
    by_cases h : a < |x|
    · rw [if_pos ((num_lt _ _).mpr h), if_pos h.le]
    · rw [if_neg (fun h' => h ((num_lt _ _).mp h'))]
      by_cases h' : a ≤ |x|
      · rw [if_pos h', le_antisymm h' (not_lt.mp h)]
      · rw [if_neg h']

theorem infNorm_emb {l : List K} (h : l.length = n) : infNorm (emb n l) = num (Alg.infNorm l) := by
  unfold infNorm Alg.infNorm
  rw [ofFn_emb h, zero_def, foldl_max_num]

theorem foldl_sq_num (l : List K) (a : K) : (l.map num).foldl (fun s x => s + x * x) (num a) =
    num (l.foldl (fun s x => s + x * x) a) := by
  induction l generalizing a with
  | nil => rfl
  | cons x l ih => rw [List.map_cons, List.foldl_cons, List.foldl_cons, ← ih, num_mul, num_add]

theorem normSq_emb {l : List K} (h : l.length = n) : normSq (emb n l) = num (Alg.normSq l) := by
  unfold normSq Alg.normSq
  rw [ofFn_emb h, zero_def, foldl_sq_num]

theorem normSq_nonneg (l : List K) : 0 ≤ Alg.normSq l := by
  have := (normSq_spec (emb l.length l)).1
  rw [normSq_emb rfl] at this
  simpa [zero_def] using this

theorem addScaled_emb {x d : List K} (hx : x.length = n) (hd : d.length = n) (b : K) :
    ∃ r, Alg.addScaled x d b = .ok r ∧ r.length = n ∧ addScaled (emb n x) (emb n d) (num b) = emb n r := by
  obtain ⟨r, h1, h2, h3⟩ := Alg.addScaled_ok (x := x) (dir := d) (by omega) b
  refine ⟨r, h1, by omega, ?_⟩
  funext i
  have := h3 i (by omega)
  simp only [addScaled, emb, num_mul, num_add, this]

theorem vsub_emb {a b : List K} (ha : a.length = n) (hb : b.length = n) :
    ∃ r, Alg.vsub a b = .ok r ∧ r.length = n ∧ emb n a - emb n b = emb n r := by
  obtain ⟨r, h1, h2, h3⟩ := Alg.vsub_ok (a := a) (b := b) (by omega)
  refine ⟨r, h1, by omega, ?_⟩
  funext i
  have := h3 i (by omega)
  change (num (a.getD i 0) - num (b.getD i 0) : Fl K) = num (r.getD i 0)
  rw [num_sub, this]

/-- A mapping of `Verif.Alg` and one of values that agree on numbers -/
def SameMap (n : Nat) (G : Alg.Mapping K) (F : V K n → V K n) : Prop :=
  ∀ l : List K, l.length = n → ∃ l', G.map l = .ok l' ∧ l'.length = n ∧ F (emb n l) = emb n l'

/-- The line search's variables as values -/
def Search.of (n : Nat) (s : Alg.Search K) : Search K n := ⟨num s.best, num s.alphaBest, emb n s.residual⟩

theorem quotient_emb {f : List K} (q b : K) :
    (num (Alg.normSq f) / num q < num b) ↔ (q ≠ 0 ∧ Alg.normSq f / q < b) := by
  by_cases hq : q = 0
  · subst hq
    simp only [ne_eq, not_true_eq_false, false_and, iff_false]
    have e : num (Alg.normSq f) / num (0 : K) = if Alg.normSq f = 0 then nan else inf (sgn (Alg.normSq f)) :=
      if_pos rfl
    rw [e]
    split
    · simp
    · simp [sgn, normSq_nonneg]
  · rw [num_div hq, num_lt]
    simp [hq]

theorem truncations_emb {G : Alg.Mapping K} {F : V K n → V K n} (hF : SameMap n G F) {d x0 : List K}
    (hd : d.length = n) (hx : x0.length = n) (q : K) (left : Nat) (a : K) (s : Alg.Search K)
    (hs : s.residual.length = n) :
    ∃ s' b, Alg.truncations G d x0 q left a s = .ok (s', b) ∧ s'.residual.length = n ∧
      truncations F (emb n d) (emb n x0) (num q) left (num a) (.of n s) = (.of n s', b) := by
  induction left generalizing a s with
  | zero => exact ⟨s, false, rfl, hs, rfl⟩
  | succ left ih =>
    unfold Alg.truncations truncations
    obtain ⟨x, e1, e2, e3⟩ := addScaled_emb hx hd a
    obtain ⟨f, g1, g2, g3⟩ := hF x e2
    rw [e1]
    simp only [bind_ok]
    rw [g1]
    simp only [bind_ok]
    rw [e3, g3, normSq_emb g2]
    obtain ⟨s1, hs1⟩ : ∃ s1 : Alg.Search K, (if q ≠ 0 ∧ Alg.normSq f / q < s.best
      then (⟨Alg.normSq f / q, a, f, s.evaluations + 1⟩ : Alg.Search K)
      else { s with evaluations := s.evaluations + 1 }) = s1 := ⟨_, rfl⟩
    rw [hs1]
    have hs2 : (if num (Alg.normSq f) / num q < (Search.of n s).best
        then (⟨num (Alg.normSq f) / num q, num a, emb n f⟩ : Search K n) else Search.of n s) = Search.of n s1 ∧
        s1.residual.length = n := by
      by_cases h : q ≠ 0 ∧ Alg.normSq f / q < s.best
      · rw [if_pos h] at hs1
        rw [if_pos (show _ < (Search.of n s).best from (quotient_emb q s.best).mpr h), num_div h.1, ← hs1]
        exact ⟨rfl, g2⟩
      · rw [if_neg h] at hs1
        rw [if_neg (fun h' : _ < (Search.of n s).best => h ((quotient_emb q s.best).mp h')), ← hs1]
        exact ⟨rfl, hs⟩
    rw [hs2.1]
    by_cases hb : s1.best < 4 / 5
    · rw [if_pos hb, if_pos (by simpa [Search.of] using hb)]
      exact ⟨s1, true, rfl, hs2.2, rfl⟩
    · rw [if_neg hb, if_neg (by simpa [Search.of] using hb), num_mul,
        show a * (1 / 2) = a / 2 by ring]
      exact ih (a / 2) s1 hs2.2

theorem lineSearch_emb {G : Alg.Mapping K} {F : V K n → V K n} (hF : SameMap n G F) {d x0 f0 res : List K}
    (hd : d.length = n) (hx : x0.length = n) (hf : f0.length = n) (hr : res.length = n) (limit : Nat) :
    ∃ a r k, Alg.lineSearch G limit d x0 f0 res = .ok (a, r, k) ∧ r.length = n ∧
      lineSearch F limit (emb n d) (emb n x0) (emb n f0) (emb n res) = (num a, emb n r) := by
  unfold Alg.lineSearch lineSearch
  rw [normSq_emb hf]
  dsimp only
  obtain ⟨s1, b1, e1, l1, e2⟩ := truncations_emb hF hd hx (Alg.normSq f0) limit 1 ⟨1, 1, res, 0⟩ hr
  rw [e1]
  have e2' : truncations F (emb n d) (emb n x0) (num (Alg.normSq f0)) limit 1 ⟨1, 1, emb n res⟩ = (.of n s1, b1) := e2
  rw [e2']
  simp only [bind_ok]
  have c : ∀ s : Alg.Search K, (Search.of n s).best = 1 ↔ s.best = 1 := fun s => by simp [Search.of, one_def]
  by_cases h : b1 = false ∧ s1.best = 1
  · rw [if_pos h, if_pos (by rw [c]; exact h)]
    obtain ⟨s2, b2, e3, l2, e4⟩ := truncations_emb hF hd hx (Alg.normSq f0) limit (-1)
      { s1 with alphaBest := -1 } l1
    rw [e3]
    have e4' : truncations F (emb n d) (emb n x0) (num (Alg.normSq f0)) limit (-1)
        { Search.of n s1 with alphaBest := -1 } = (.of n s2, b2) := e4
    rw [e4']
    simp only [bind_ok]
    by_cases h' : b2 = false ∧ s2.best = 1
    · rw [if_pos h', if_pos (by rw [c]; exact h')]
      exact ⟨0, s2.residual, _, rfl, l2, rfl⟩
    · rw [if_neg h', if_neg (by rw [c]; exact h')]
      exact ⟨_, s2.residual, _, rfl, l2, rfl⟩
  · rw [if_neg h, if_neg (by rw [c]; exact h)]
    exact ⟨_, s1.residual, _, rfl, l1, rfl⟩

/-- The error estimator as values -/
def Est.of (n : Nat) (e : Alg.Est K) : Est K n :=
  ⟨num e.absTol, num e.relTol, num e.absMax, num e.relMax, emb n e.current, num e.absError, num e.relError⟩

theorem est_emb {e : Alg.Est K} {x f : List K} (hc : e.current.length = n) (hx : x.length = n) (hf : f.length = n) :
    ∃ e', e.setCurrentSolution x f = .ok e' ∧ e'.current = x ∧
      (Est.of n e).setCurrentSolution (emb n x) (emb n f) = .of n e' := by
  obtain ⟨dx, h1, h2, h3⟩ := vsub_emb hx hc
  unfold Alg.Est.setCurrentSolution Est.setCurrentSolution
  rw [h1]
  simp only [bind_ok]
  refine ⟨_, rfl, rfl, ?_⟩
  simp only [Est.of]
  simp only [infNorm_emb hc, h3, infNorm_emb h2, infNorm_emb hf, zero_def, num_lt]
  by_cases h : 0 < Alg.infNorm e.current
  · simp only [gt_iff_lt, if_pos h, num_div h.ne']
  · simp only [gt_iff_lt, if_neg h]

theorem status_emb (e : Alg.Est K) : (Est.of n e).status = e.status := by
  unfold Est.status Alg.Est.status Est.of
  simp only [zero_def, num_le, num_lt, gt_iff_lt, ge_iff_le]

/-- The iteration performer as values -/
def Perf.of (n : Nat) (s : Alg.Perf D K) : Perf D K n :=
  ⟨emb n s.x, emb n s.f, s.fValid, num s.ratio, .of n s.est, s.dir⟩

/-- Sizes of the vectors of an iteration performer -/
def Sized (n : Nat) (s : Alg.Perf D K) : Prop :=
  s.x.length = n ∧ (s.fValid = true → s.f.length = n) ∧ s.est.current.length = n

/-- Components that agree on numbers -/
structure SameParts (n : Nat) (Q : Alg.Parts D K) (P : Parts D K n) : Prop where
  F : SameMap n Q.F P.F
  search : Q.search = fun dir x0 f0 res => do
    let r ← Alg.lineSearch Q.F P.limit dir x0 f0 res
    .ok (r.1, r.2.1)
  direction : ∀ x f it d, x.length = n → f.length = n → ∃ d' g, Q.direction x f it d = .ok (d', g) ∧
    g.length = n ∧ P.direction (emb n x) (emb n f) it d = (d', emb n g)
  dirReset : Q.dirReset = P.dirReset
  reportSuccess : Q.reportSuccess = P.reportSuccess
  hardResetMayHelp : Q.hardResetMayHelp = P.hardResetMayHelp

theorem iteration_emb {Q : Alg.Parts D K} {P : Parts D K n} (h : SameParts n Q P) (it : Nat) {s : Alg.Perf D K}
    (hs : Sized n s) :
    ∃ s' st, s.iteration Q it = .ok (s', st) ∧ Sized n s' ∧ (Perf.of n s).iteration P it = (.of n s', st) := by
  obtain ⟨hx, hf, hc⟩ := hs
  have hres : ∃ s1, s.currentResidual Q = .ok s1 ∧ s1.x = s.x ∧ s1.f.length = n ∧ s1.est = s.est ∧ s1.fValid = true ∧
      (Perf.of n s).currentResidual P = .of n s1 := by
    unfold Alg.Perf.currentResidual Perf.currentResidual
    by_cases hv : s.fValid = true
    · rw [if_pos hv, if_pos (by exact hv)]
      exact ⟨s, rfl, rfl, hf hv, rfl, hv, rfl⟩
    · rw [if_neg hv, if_neg (by exact hv)]
      obtain ⟨l, e1, e2, e3⟩ := h.F s.x hx
      rw [e1]
      simp only [bind_ok]
      refine ⟨_, rfl, rfl, e2, rfl, rfl, ?_⟩
      simp only [Perf.of]
      rw [e3]
  obtain ⟨s1, a1, a2, a3, a4, a5, a6⟩ := hres
  unfold Alg.Perf.iteration Perf.iteration
  rw [a1, a6]
  simp only [bind_ok]
  obtain ⟨d', g, b1, b2, b3⟩ := h.direction s1.x s1.f it s1.dir (by rw [a2]; exact hx) a3
  rw [b1]
  have b3' : P.direction (Perf.of n s1).x (Perf.of n s1).f it (Perf.of n s1).dir = (d', emb n g) := b3
  rw [b3']
  simp only [bind_ok]
  obtain ⟨a, r, k, c1, c2, c3⟩ := lineSearch_emb h.F b2 (x0 := s1.x) (by rw [a2]; exact hx) a3 a3 P.limit
  rw [h.search]
  simp only
  rw [c1]
  have c3' : lineSearch P.F P.limit (emb n g) (Perf.of n s1).x (Perf.of n s1).f (Perf.of n s1).f = (num a, emb n r) := c3
  rw [c3']
  simp only [bind_ok]
  obtain ⟨x, d1, d2, d3⟩ := addScaled_emb (x := s1.x) (by rw [a2]; exact hx) b2 a
  rw [d1]
  have d3' : addScaled (Perf.of n s1).x (emb n g) (num a) = emb n x := d3
  rw [d3']
  simp only [bind_ok]
  obtain ⟨e, e1, e2, e3⟩ := est_emb (e := s1.est) (x := x) (f := r) (by rw [a4]; exact hc) d2 c2
  rw [e1]
  have e3' : (Perf.of n s1).est.setCurrentSolution (emb n x) (emb n r) = .of n e := e3
  rw [e3']
  simp only [bind_ok]
  refine ⟨_, _, rfl, ⟨d2, fun _ => c2, by rw [e2]; exact d2⟩, ?_⟩
  rw [status_emb]
  simp only [zero_def, num.injEq]
  rfl

theorem reset_emb {Q : Alg.Parts D K} {P : Parts D K n} (h : SameParts n Q P) (hard : Bool) {s : Alg.Perf D K}
    (hx : s.x.length = n) (hf : s.fValid = true → s.f.length = n) :
    Sized n (s.reset Q hard) ∧ (Perf.of n s).reset P hard = .of n (s.reset Q hard) := by
  refine ⟨⟨hx, hf, hx⟩, ?_⟩
  unfold Perf.reset Alg.Perf.reset
  rw [h.dirReset]
  rfl

theorem iterations_emb {Q : Alg.Parts D K} {P : Parts D K n} (h : SameParts n Q P) {obs : Nat → Perf D K n → Bool}
    (tried : Bool) (bias : Nat) (left it : Nat) {s : Alg.Perf D K} (hs : Sized n s) :
    ∃ s' st k, (Q.env fun k s => .ok (obs k (.of n s))).iterations tried bias left it s = .ok (s', st, k) ∧
      Sized n s' ∧ (P.env obs).iterations tried bias left it (.of n s) = .ok (.of n s', st, k) := by
  induction left generalizing it s with
  | zero => exact ⟨s, none, it, rfl, hs, rfl⟩
  | succ left ih =>
    unfold Alg.Env.iterations
    obtain ⟨s1, st, e1, e2, e3⟩ := iteration_emb h it hs
    have q1 : (Q.env fun k s => .ok (obs k (.of n s))).iteration it s = .ok (s1, st) := e1
    have q2 : (P.env obs).iteration it (.of n s) = .ok (.of n s1, st) := congrArg Except.ok e3
    rw [q1, q2]
    simp only [bind_ok]
    have q3 : (Q.env fun k s => .ok (obs k (.of n s))).observers ((it + bias) % 4294967296) s1
      = .ok (s1, obs ((it + bias) % 4294967296) (.of n s1)) := rfl
    have q4 : (P.env obs).observers ((it + bias) % 4294967296) (.of n s1)
      = .ok (.of n s1, obs ((it + bias) % 4294967296) (.of n s1)) := rfl
    rw [q3, q4]
    simp only [bind_ok]
    by_cases ho : obs ((it + bias) % 4294967296) (.of n s1) = true
    · rw [if_pos ho, if_pos ho]
      exact ⟨s1, _, _, rfl, e2, rfl⟩
    · rw [if_neg ho, if_neg ho]
      have q5 : (Q.env fun k s => .ok (obs k (.of n s))).adjust s1 = .ok (s1, false) := rfl
      have q6 : (P.env obs).adjust (.of n s1) = .ok (.of n s1, false) := rfl
      rw [q5, q6]
      simp only [bind_ok]
      have rep : ∀ b, Sized n { s1 with dir := Q.reportSuccess b s1.dir } := fun b => e2
      have q7 : ∀ b, (Q.env fun k s => .ok (obs k (.of n s))).reportSuccess b s1 =
        .ok { s1 with dir := Q.reportSuccess b s1.dir } := fun b => rfl
      have q8 : ∀ b, (P.env obs).reportSuccess b (.of n s1) =
          .ok (.of n { s1 with dir := Q.reportSuccess b s1.dir }) := fun b => by
        rw [h.reportSuccess]; rfl
      cases st with
      | converged =>
        simp only [Bool.false_eq_true, if_false]
        rw [q7, q8]
        exact ⟨_, _, _, rfl, rep _, rfl⟩
      | proceed => exact ih (it + 1) e2
      | diverged =>
        simp only [Bool.false_eq_true, if_false]
        rw [q7, q8]
        simp only [bind_ok]
        by_cases ht : tried = true
        · rw [if_pos ht, if_pos ht]
          exact ⟨_, _, _, rfl, rep _, rfl⟩
        · rw [if_neg ht, if_neg ht]
          exact ⟨_, _, _, rfl, rep _, rfl⟩

/-- If the mapping and the linear solver give numbers for numbers, the solver does what it does in exact
arithmetic (`Verif.Alg`). -/
theorem C122_numbers {Q : Alg.Parts D K} {P : Parts D K n} (h : SameParts n Q P) {obs : Nat → Perf D K n → Bool}
    (limit : Nat) {guess : List K} (hg : guess.length = n) (hard : Bool) (s : Alg.Perf D K) :
    ∃ s' st, (Q.env fun k s => .ok (obs k (.of n s))).run limit (s.setInitialGuess Q guess hard) = .ok (s', st) ∧
      (P.env obs).run limit ((Perf.of n s).setInitialGuess P (emb n guess) hard) = .ok (.of n s', st) := by
  have hset : ∀ (s : Alg.Perf D K) hard, Sized n (s.setInitialGuess Q guess hard) ∧
      (Perf.of n s).setInitialGuess P (emb n guess) hard = .of n (s.setInitialGuess Q guess hard) := by
    intro s hard
    exact reset_emb h hard (s := { s with x := guess, fValid := false }) hg (fun h => by cases h)
  obtain ⟨g1, g2⟩ := hset s hard
  rw [g2]
  have gx : (s.setInitialGuess Q guess hard).x = guess := rfl
  generalize s.setInitialGuess Q guess hard = s at g1 gx
  unfold Alg.Env.run
  obtain ⟨r1, r2⟩ := reset_emb h false g1.1 g1.2.1
  have q1 : (Q.env fun k s => .ok (obs k (.of n s))).reset false s = .ok (s.reset Q false) := rfl
  have q2 : (P.env obs).reset false (.of n s) = .ok (.of n (s.reset Q false)) := congrArg Except.ok r2
  rw [q1, q2]
  simp only [bind_ok]
  have rx : (s.reset Q false).x = guess := gx
  generalize s.reset Q false = s1 at r1 rx
  obtain ⟨s2, st, k, i1, i2, i3⟩ := iterations_emb h (obs := obs) false 0 limit 0 r1
  rw [i1, i3]
  simp only [bind_ok]
  have q7 : ∀ b s1, (Q.env fun k s => .ok (obs k (.of n s))).reportSuccess b s1 =
    .ok { s1 with dir := Q.reportSuccess b s1.dir } := fun b s1 => rfl
  have q8 : ∀ b (s1 : Alg.Perf D K), (P.env obs).reportSuccess b (.of n s1) =
      .ok (.of n { s1 with dir := Q.reportSuccess b s1.dir }) := fun b s1 => by
    rw [h.reportSuccess]; rfl
  cases st with
  | some st => exact ⟨s2, st, rfl, rfl⟩
  | none =>
    have qh : (Q.env fun k s => .ok (obs k (.of n s))).hardResetMayHelp s2 = (P.env obs).hardResetMayHelp (.of n s2) := by
      change Q.hardResetMayHelp s2.dir = P.hardResetMayHelp s2.dir
      rw [h.hardResetMayHelp]
    simp only [qh]
    by_cases hh : (P.env obs).hardResetMayHelp (.of n s2) = true
    · rw [if_pos hh, if_pos hh]
      have q3 : (Q.env fun k s => .ok (obs k (.of n s))).setInitialGuess
          ((Q.env fun k s => .ok (obs k (.of n s))).solution s1) true s2 = .ok (s2.setInitialGuess Q guess true) := by
        change Except.ok (s2.setInitialGuess Q s1.x true) = _
        rw [rx]
      obtain ⟨g3, g4⟩ := hset s2 true
      have q4 : (P.env obs).setInitialGuess ((P.env obs).solution (.of n s1)) true (.of n s2) =
          .ok (.of n (s2.setInitialGuess Q guess true)) := by
        rw [← g4]
        change Except.ok ((Perf.of n s2).setInitialGuess P (emb n s1.x) true) = _
        rw [rx]
      rw [q3, q4]
      simp only [bind_ok]
      obtain ⟨s3, st3, k3, j1, j2, j3⟩ := iterations_emb h (obs := obs) true k limit 0 g3
      rw [j1, j3]
      simp only [bind_ok]
      cases st3 with
      | some st3 => exact ⟨s3, st3, rfl, rfl⟩
      | none =>
        simp only
        rw [q7, q8]
        exact ⟨_, _, rfl, rfl⟩
    · rw [if_neg hh, if_neg hh, q7, q8]
      exact ⟨_, _, rfl, rfl⟩

end

/-- Components meeting the conditions: `F x = x - 1` in one dimension with the exact direction -/
example : SameParts 1
    (⟨⟨1, 1, fun l => .ok [l.getD 0 0 - 1]⟩, fun _ d => d, fun _ f _ d => .ok (d, [-(f.getD 0 0)]), fun _ => false,
      fun _ d => d, fun dir x0 f0 res => do
        let r ← Alg.lineSearch ⟨1, 1, fun l => .ok [l.getD 0 0 - 1]⟩ 10 dir x0 f0 res
        .ok (r.1, r.2.1)⟩ : Alg.Parts Unit ℚ)
    ⟨fun x i => x i - 1, fun _ d => d, fun _ f _ d => (d, fun i => -(f i)), fun _ => false, fun _ d => d, 10⟩ where
  F l hl := ⟨_, rfl, rfl, by funext i; obtain rfl : i = 0 := Subsingleton.elim _ _; simp [emb, one_def]⟩
  search := rfl
  direction x f it d hx hf := ⟨_, _, rfl, rfl, by
    refine Prod.ext rfl ?_
    funext i
    obtain rfl : i = 0 := Subsingleton.elim _ _
    simp [emb]⟩
  dirReset := rfl
  reportSuccess := rfl
  hardResetMayHelp := rfl

end Verif.Special
