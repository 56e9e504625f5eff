import Verif.Implicit.Converge
import Verif.Ros.Converge

/-! # Beside C106: a run that meets its hypotheses -/

namespace Verif.Implicit

open Verif.Res Verif.Alg Verif.Ros Set Filter Topology

noncomputable section

/-- `x' = -x` -/
def realDecay : Rhs ℝ := ⟨0, 1, fun _ x => .ok [-x.getD 0 0]⟩

/-- Implicit Euler with the line search of the library and a secant as the descent direction -/
def realEuler : IMethod Unit ℝ Unit where
  rhs _ := realDecay
  parts F :=
    { F := F
      dirReset := fun _ d => d
      direction := fun x f _ d => do
        let g ← F.map [x.getD 0 0 + 1]
        .ok (d, [-f.getD 0 0 / (g.getD 0 0 - f.getD 0 0)])
      hardResetMayHelp := fun _ => false
      reportSuccess := fun _ d => d
      search := fun d x f0 res => do
        let r ← lineSearch F 8 d x f0 res
        .ok (r.1, r.2.1) }
  observers _ _ := .ok false
  limit := 1
  order := none
  predictor := none
  predictorSteps := 1
  ec := none

/-- The solver at time `t`, state `v`, with step `h` and absolute tolerance 0 -/
structure RealAt (h t v : ℝ) (s : ISolver Unit ℝ Unit) : Prop where
  h : s.hInit = h
  alpha : s.map.alpha = 1
  t : s.map.t0 = t
  x : s.map.x0 = [v]
  abs : s.perf.est.absTol = 0
  rel : s.perf.est.relTol = 1

theorem realMap {h : ℝ} (m : EMap ℝ) {v : ℝ} (ha : m.alpha = 1) (hx : m.x0 = [v]) (w : ℝ) :
    ((m.setTimeStep h).mapping realDecay).map [w] = .ok [(1 + h) * w - v] := by
  obtain ⟨a, b, c, d, e, g⟩ := m
  dsimp only at ha hx
  subst ha hx
  have : ((EMap.setTimeStep h ⟨1, b, c, [v], e, g⟩).mapping realDecay).map [w] =
    .ok [w - v + (-v) * (-h * (1 - 1)) + (-w) * (-h * 1)] := rfl
  rw [this]
  congr 2
  ring

theorem realRun {F : Mapping ℝ} {h v : ℝ} (hh : 0 < h) (hv : 0 < v) (hF : ∀ w, F.map [w] = .ok [(1 + h) * w - v])
    {s : Perf Unit ℝ} (hx : s.x = [v]) (hf : s.fValid = false) (h1 : s.est.absTol = 0) (h2 : s.est.relTol = 1) :
    ∃ s', ((realEuler.parts F).env realEuler.observers).run 1 s = .ok (s', .converged) ∧ s'.x = [v / (1 + h)] ∧
      s'.est.absTol = 0 ∧ s'.est.relTol = 1 := by
  have hp : (1 + h) ≠ 0 := by positivity
  obtain ⟨δ, hδ⟩ : ∃ δ, δ = -((1 + h) * v - v) / ((1 + h) * (v + 1) - v - ((1 + h) * v - v)) := ⟨_, rfl⟩
  have hδ' : δ = -(h * v) / (1 + h) := by rw [hδ]; congr 1 <;> ring
  have hr : v + δ * 1 = v / (1 + h) := by
    rw [hδ']; field_simp; ring
  obtain ⟨x, f, fv, ratio, est, d⟩ := s
  obtain ⟨a1, a2, a3, a4, a5, a6, a7⟩ := est
  dsimp only at hx hf h1 h2
  subst hx hf h1 h2
  have e0 : normSq [(1 + h) * v - v] ≠ 0 := by
    have : (0:ℝ) < h * v := by positivity
    simp only [normSq, List.foldl]
    nlinarith
  have e1 : addScaled [v] [δ] 1 = .ok [v / (1 + h)] := by rw [← hr]; rfl
  have e2 : F.map [v / (1 + h)] = .ok [0] := by rw [hF, mul_div_cancel₀ _ hp, sub_self]
  have e3 : normSq [(0:ℝ)] = 0 := by simp [normSq]
  have tr : truncations F [δ] [v] (normSq [(1 + h) * v - v]) 8 1 ⟨1, 1, [(1 + h) * v - v], 0⟩ =
      .ok (⟨0, 1, [0], 1⟩, true) := by
    unfold truncations
    rw [e1, bind_ok, e2, bind_ok]
    dsimp only
    have c : normSq [(1 + h) * v - v] ≠ 0 ∧ normSq [(0:ℝ)] / normSq [(1 + h) * v - v] < 1 := ⟨e0, by rw [e3]; norm_num⟩
    rw [if_pos c, e3, zero_div, if_pos (by norm_num)]
  have ls : lineSearch F 8 [δ] [v] [(1 + h) * v - v] [(1 + h) * v - v] = .ok (1, [0], 1) := by
    unfold lineSearch
    dsimp only
    rw [tr, bind_ok, if_neg (by simp)]
  have es : Est.setCurrentSolution [v / (1 + h)] [0] ⟨0, 1, a3, a4, [v], 0, 0⟩ =
      .ok ⟨0, 1, a3, a4, [v / (1 + h)], 0, |v / (1 + h) - v| / v⟩ := by
    have q1 : vsub [v / (1 + h)] [v] = .ok [v / (1 + h) - v] := rfl
    have q2 : infNorm [v] = v := by simp [infNorm, abs_of_pos hv, hv.le]
    have q3 : infNorm [v / (1 + h) - v] = |v / (1 + h) - v| := by simp [infNorm]
    have q4 : infNorm [(0:ℝ)] = 0 := by simp [infNorm]
    unfold Est.setCurrentSolution
    rw [q1, bind_ok]
    dsimp only
    rw [q2, q3, q4, if_pos hv]
  have er : |v / (1 + h) - v| / v ≤ 1 := by
    rw [div_le_one hv, abs_le]
    have : 0 < v / (1 + h) := by positivity
    have : v / (1 + h) ≤ v := div_le_self hv.le (by linarith)
    constructor <;> linarith
  have hst : Est.status (⟨0, 1, a3, a4, [v / (1 + h)], 0, |v / (1 + h) - v| / v⟩ : Est ℝ) = .converged := by
    unfold Est.status
    rw [if_pos ⟨le_refl _, er⟩]
  have it : Perf.iteration (realEuler.parts F) 0 (Perf.reset (realEuler.parts F) false
      ⟨[v], f, false, ratio, ⟨0, 1, a3, a4, a5, a6, a7⟩, d⟩) =
      .ok (⟨[v / (1 + h)], [0], true, 1, ⟨0, 1, a3, a4, [v / (1 + h)], 0, |v / (1 + h) - v| / v⟩, d⟩, .converged) := by
    unfold Perf.iteration Perf.currentResidual Perf.reset realEuler
    dsimp only [Est.reset]
    rw [if_neg (by simp), hF, bind_ok, bind_ok]
    dsimp only
    rw [hF, bind_ok, bind_ok]
    simp only [List.getD_cons_zero]
    rw [← hδ, ls, bind_ok, bind_ok]
    dsimp only
    rw [e1, bind_ok, es, bind_ok, hst]
    simp
  refine ⟨⟨[v / (1 + h)], [0], true, 1, ⟨0, 1, a3, a4, [v / (1 + h)], 0, |v / (1 + h) - v| / v⟩, d⟩, ?_, rfl, rfl, rfl⟩
  · unfold Env.run Env.iterations Parts.env
    dsimp only
    rw [bind_ok, it, bind_ok]
    rfl

/-- One step -/
theorem realStep {h t v : ℝ} (hh : 0 < h) (hv : 0 < v) {s : ISolver Unit ℝ Unit} (hs : RealAt h t v s) :
    ∃ s' tr, s.doStep realEuler = .ok (s', tr) ∧ RealAt h (t + h) (v / (1 + h)) s' := by
  obtain ⟨⟨a, b, c, d, e, g⟩, buf, eqn, hard, h', perf, ec⟩ := s
  obtain ⟨b1, b2, b3, b4, b5, b6⟩ := hs
  dsimp only at b1 b2 b3 b4 b5 b6
  subst b1 b2 b3 b4
  obtain ⟨s', r1, r2, r3, r4⟩ := realRun (F := (EMap.setTimeStep h' ⟨1, b, c, [v], e, g⟩).mapping realDecay) hh hv
    (realMap _ rfl rfl)
    (s := perf.setInitialGuess (realEuler.parts ((EMap.setTimeStep h' ⟨1, b, c, [v], e, g⟩).mapping realDecay)) [v] hard)
    rfl rfl b5 b6
  have hg : ISolver.guess realEuler ⟨EMap.setTimeStep h' ⟨1, b, c, [v], e, g⟩, buf, eqn, hard, h', perf, ec⟩ h' =
    .ok (eqn, [v]) := rfl
  obtain ⟨sx, sf, sv, sr, se, sd⟩ := s'
  dsimp only at r2 r3 r4
  subst r2
  have hc : EMap.computeOdeState realDecay (EMap.setTimeStep h' ⟨1, b, c, [v], e, g⟩) buf [v / (1 + h')] =
      .ok [v / (1 + h')] := by
    rcases buf with _ | ⟨_, _⟩ <;> rfl
  refine ⟨⟨EMap.setInitialState (c + h') [v / (1 + h')] (EMap.setTimeStep h' ⟨1, b, c, [v], e, g⟩), [v / (1 + h')], eqn,
    false, h', ⟨[v / (1 + h')], sf, sv, sr, se, sd⟩, ec⟩, RK.Trunc.none, ?_, rfl, rfl, rfl, rfl, r3, r4⟩
  unfold ISolver.doStep
  dsimp only
  rw [hg, bind_ok]
  dsimp only
  show (((realEuler.parts _).env realEuler.observers).run 1 _ >>= _) = _
  rw [show realEuler.mapping4Newton ec (EMap.setTimeStep h' ⟨1, b, c, [v], e, g⟩) =
    (EMap.setTimeStep h' ⟨1, b, c, [v], e, g⟩).mapping realDecay from rfl, r1, bind_ok]
  rw [if_neg (by simp)]
  show (EMap.computeOdeState realDecay _ _ _ >>= _) = _
  rw [hc, bind_ok]
  rfl

/-- Every number of steps succeeds. -/
theorem realSteps {h t v : ℝ} (hh : 0 < h) (hv : 0 < v) {s : ISolver Unit ℝ Unit} (hs : RealAt h t v s) (N : Nat) :
    ∃ st : Nat → ISolver Unit ℝ Unit, st 0 = s ∧ ∀ k < N, ∃ tr, (st k).doStep realEuler = .ok (st (k + 1), tr) := by
  induction N generalizing t v s with
  | zero => exact ⟨fun _ => s, rfl, fun k hk => absurd hk (by omega)⟩
  | succ N ih =>
    obtain ⟨s', tr, h1, h2⟩ := realStep hh hv hs
    obtain ⟨st, h3, h4⟩ := ih (by positivity) h2
    refine ⟨fun k => match k with | 0 => s | k + 1 => st k, rfl, fun k hk => ?_⟩
    match k with
    | 0 => exact ⟨tr, by rw [h1]; dsimp only; rw [h3]⟩
    | k + 1 => exact h4 k (by omega)

/-- A new solver at time 0, state 1, step `h` -/
def realSolver (h : ℝ) : ISolver Unit ℝ Unit where
  map := (EMap.new : EMap ℝ).setInitialState 0 [1]
  buf := []
  eqnbuf := []
  hard := true
  hInit := h
  perf := ⟨[], [], false, 1, ⟨0, 1, 0, 0, [], 0, 0⟩, ()⟩
  ec := ()

/-- The hypotheses of `C106_converges` are met: for every step there is a run over the whole interval, with the
tolerance zero, and its error is at most `C h`. -/
example : ∃ C : ℝ, ∃ h₀ > (0 : ℝ), ∀ h, 0 < h → h ≤ h₀ → ∀ N : Nat, (N : ℝ) * h ≤ 5 →
    ∃ st : Nat → ISolver Unit ℝ Unit, st 0 = realSolver h ∧
      (∀ k < N, ∃ tr, (st k).doStep realEuler = .ok (st (k + 1), tr)) ∧
      ∀ k ≤ N, |(st k).map.x0.getD 0 0 - Real.exp (-(k * h))| ≤ C * h := by
  obtain ⟨C, h₀, hh₀, hC⟩ := C106_converges (p := 1) (alpha := 1) (t₀ := 0) (b := 5) (n2 := 0) (n1 := 1) (S := univ)
    (L := 1) (tl := 8) (e := ()) (f := fun _ x => -x) (y := fun t _ => Real.exp (-t)) realEuler
    (fun F => ⟨rfl, fun _ _ _ _ => rfl⟩) rfl ⟨rfl, rfl, fun t x hx => by
      rcases x with _ | ⟨a, _ | ⟨_, _⟩⟩ <;> simp at hx
      rfl⟩
    (fun _ _ i hi => absurd hi (by omega)) (fun o ho => by cases ho) (fun p hp => by cases hp) (Or.inl rfl) zero_le_one
    (fun t _ x _ z _ => by rw [one_mul, ← norm_neg (x - z)]; apply le_of_eq; congr 1; abel) (fun t _ => mem_univ _)
    (fun t _ => contDiffAt_snd.neg) (fun t _ => Eventually.of_forall fun r => by
      rw [hasDerivAt_pi]
      intro i
      have := (hasDerivAt_neg r).exp
      simpa using this)
  refine ⟨C, h₀, hh₀, fun h hpos hle N hN => ?_⟩
  obtain ⟨st, h1, h2⟩ := realSteps hpos one_pos (s := realSolver h) (t := 0) ⟨rfl, rfl, rfl, rfl, rfl, rfl⟩ N
  refine ⟨st, h1, h2, fun k hk => ?_⟩
  have := (hC h hpos hle 0 le_rfl N st (h1 ▸ rfl) (h1 ▸ rfl) (h1 ▸ rfl) (h1 ▸ rfl)
    (by rw [h1]; exact zero_le_one) (h1 ▸ rfl) (by rw [h1]; simp [realSolver, EMap.setInitialState]) h2
    (fun k _ => mem_univ _) (by simpa using hN) k hk).2
  have h3 := (norm_le_pi_norm _ (0 : Fin (2 * 0 + 1))).trans this
  simpa [fn] using h3

end

end Verif.Implicit
