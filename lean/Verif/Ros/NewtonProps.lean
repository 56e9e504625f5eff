import Verif.Ros.RhsMapProps
import Verif.Implicit.InvariantProps

/-!
# Newton iterations of implicit Euler and linear quantities (C145)
-/

namespace Verif.Ros

open Verif.Res Verif.Alg Verif.Implicit

section
variable {K : Type} [Field K] [LinearOrder K] [IsStrictOrderedRing K]

omit [LinearOrder K] [IsStrictOrderedRing K] in
/-- The quantity of the residual is how far the quantity is from that at the start of the step. -/
theorem residual_quantity {r : Rhs K} (h2 : r.n2 = 0) {w : Nat → K} {alpha h : K} {x0 x f0 f1 : List K}
    (c0 : ∑ i ∈ Finset.range r.n1, w i * f0.getD i 0 = 0) (c1 : ∑ i ∈ Finset.range r.n1, w i * f1.getD i 0 = 0) :
    ∑ i ∈ Finset.range r.n1, w i * (Implicit.residual r.n2 r.n1 alpha h x0 x f0 f1).getD i 0 =
      ∑ i ∈ Finset.range r.n1, w i * x.getD i 0 - ∑ i ∈ Finset.range r.n1, w i * x0.getD i 0 := by
  have e : ∀ i ∈ Finset.range r.n1, w i * (Implicit.residual r.n2 r.n1 alpha h x0 x f0 f1).getD i 0 =
      w i * x.getD i 0 - w i * x0.getD i 0 - (h * (1 - alpha) * (w i * f0.getD i 0) + h * alpha * (w i * f1.getD i 0)) := by
    intro i hi
    have hi := Finset.mem_range.1 hi
    unfold Implicit.residual
    rw [getD_range_map _ (by omega), h2, Nat.zero_add]
    ring
  rw [Finset.sum_congr rfl e, Finset.sum_sub_distrib, Finset.sum_sub_distrib, Finset.sum_add_distrib, ← Finset.mul_sum,
    ← Finset.mul_sum, c0, c1]
  ring

/-- C145: for equations of first order, one Newton iteration of implicit Euler with the finite-difference Jacobian, taken with the
factor `lam`, multiplies the error in a linear quantity that the equations keep by exactly `1 - lam`, however nonlinear they are and
whatever the increment of the differences. With `lam = 1` the quantity is exactly that at the start of the step. -/
theorem C145_newton {r : Rhs K} (hw : Works r) (h2 : r.n2 = 0) {w : Nat → K} (hc : Conserves r w) {m : EMap K} (hm : Fresh r m)
    (hx0 : m.x0.length = r.n1) {dx : K} (hdx : dx ≠ 0) {x : List K} (hx : x.length = r.n1) :
    ∃ A F, computeJacobian (m.mapping r) dx x = .ok A ∧ (m.mapping r).map x = .ok F ∧
      ∀ d : Nat → K, (∀ i < r.n1, ∑ c ∈ Finset.range r.n1, Sparse.Data.get A.data (i, c) * d c = -F.getD i 0) →
        ∀ (lam : K) (y : List K), (∀ i < r.n1, y.getD i 0 = x.getD i 0 + lam * d i) →
          quantity r w y - quantity r w m.x0 = (1 - lam) * (quantity r w x - quantity r w m.x0) := by
  have hv : r.varCount = r.n1 := by unfold Rhs.varCount; omega
  have hv2 : 2 * r.n2 + r.n1 = r.n1 := by omega
  have cons : ∀ t z f, z.length = r.n1 → r.rhs t z = .ok f → ∑ i ∈ Finset.range r.n1, w i * f.getD i 0 = 0 := fun t z f a b => by
    have := hc t z f (by omega) b
    rwa [hv2] at this
  obtain ⟨A, J, a1, j1, aj⟩ := C146_euler hw h2 hm hx0 hdx hx
  obtain ⟨f1, f, e1, hl, hf⟩ := works_shifts hw (m.t0 + m.h) dx (x := x) (by omega)
  obtain ⟨J', j2, -, j3⟩ := jac_get hdx (by omega) e1 hl hf
  rw [j1] at j2
  cases j2
  obtain ⟨f0, b1, b2⟩ := hw m.t0 m.x0 (by omega)
  obtain ⟨m', q⟩ := map_ok r hm (by omega) (x := x) (by omega) b1 b2 (by simpa [full, h2] using e1) (by omega)
  refine ⟨A, _, a1, (by show (m.map r x >>= fun p => .ok p.2) = _; rw [q]; rfl), fun d hd lam y hy => ?_⟩
  have col : ∀ c < r.n1, ∑ i ∈ Finset.range r.n1, w i * Sparse.Data.get A.data (i, c) = w c := by
    intro c hcn
    have e : ∀ i ∈ Finset.range r.n1, w i * Sparse.Data.get A.data (i, c) =
        (if i = c then w i else 0) - m.h * m.alpha / dx * (w i * (f c).getD i 0 - w i * f1.getD i 0) := by
      intro i hi
      have hi := Finset.mem_range.1 hi
      rw [aj i c hi hcn, j3 i c (by omega) (by omega)]
      split
      · field_simp
      · field_simp
        ring
    rw [Finset.sum_congr rfl e, Finset.sum_sub_distrib, ← Finset.mul_sum, Finset.sum_sub_distrib,
      cons _ _ _ (by simpa using hx) (hf c (by omega)).1, cons _ _ _ hx e1, Finset.sum_ite_eq' (Finset.range r.n1) c,
      if_pos (Finset.mem_range.2 hcn)]
    ring
  have hwd : ∑ c ∈ Finset.range r.n1, w c * d c =
      -(∑ i ∈ Finset.range r.n1, w i * x.getD i 0 - ∑ i ∈ Finset.range r.n1, w i * m.x0.getD i 0) := by
    rw [← residual_quantity h2 (alpha := m.alpha) (h := m.h) (x0 := m.x0) (x := x) (cons _ _ _ hx0 b1) (cons _ _ _ hx e1),
      ← Finset.sum_neg_distrib]
    have e : ∀ i ∈ Finset.range r.n1, -(w i * (Implicit.residual r.n2 r.n1 m.alpha m.h m.x0 x f0 f1).getD i 0) =
        ∑ c ∈ Finset.range r.n1, w i * Sparse.Data.get A.data (i, c) * d c := by
      intro i hi
      rw [← mul_neg, ← hd i (Finset.mem_range.1 hi), Finset.mul_sum]
      exact Finset.sum_congr rfl fun c _ => by ring
    rw [Finset.sum_congr rfl e, Finset.sum_comm]
    refine Finset.sum_congr rfl fun c hcn => ?_
    rw [← Finset.sum_mul, col c (Finset.mem_range.1 hcn)]
  unfold quantity
  rw [hv2]
  have ey : ∑ i ∈ Finset.range r.n1, w i * y.getD i 0 =
      ∑ i ∈ Finset.range r.n1, w i * x.getD i 0 + lam * ∑ c ∈ Finset.range r.n1, w c * d c := by
    rw [Finset.mul_sum, ← Finset.sum_add_distrib]
    refine Finset.sum_congr rfl fun i hi => ?_
    rw [hy i (Finset.mem_range.1 hi)]
    ring
  rw [ey, hwd]
  ring

/-- A descent direction, in states with `G`, follows the weights `w` like a solution of the linear system: the weighted sum of the
direction is minus that of the residual. By `C145_newton` this is so when the system with the finite-difference Jacobian is solved. -/
structure Follows {D : Type} (P : Parts D K) (n : Nat) (w : Nat → K) (G : D → Prop) : Prop where
  reset : ∀ hard d, G d → G (P.dirReset hard d)
  report : ∀ b d, G d → G (P.reportSuccess b d)
  direction : ∀ x f it d r, G d → x.length = n → P.F.map x = .ok f → P.direction x f it d = .ok r →
    G r.1 ∧ ∑ i ∈ Finset.range n, w i * r.2.getD i 0 = -∑ i ∈ Finset.range n, w i * f.getD i 0

/-- C145: a descent direction that solves the linear system with the finite-difference Jacobian at the current point follows every
linear quantity that the equations keep. -/
theorem C145_follows {D : Type} {r : Rhs K} (hw : Works r) (h2 : r.n2 = 0) {w : Nat → K} (hc : Conserves r w) {m : EMap K} (hm : Fresh r m)
    (hx0 : m.x0.length = r.n1) {dx : K} (hdx : dx ≠ 0) {P : Parts D K} (hP : P.F = m.mapping r) {G : D → Prop}
    (hr : ∀ hard d, G d → G (P.dirReset hard d)) (hb : ∀ b d, G d → G (P.reportSuccess b d))
    (hd : ∀ x f it d q A, G d → x.length = r.n1 → P.F.map x = .ok f → P.direction x f it d = .ok q →
      computeJacobian P.F dx x = .ok A → G q.1 ∧
        ∀ i < r.n1, ∑ c ∈ Finset.range r.n1, Sparse.Data.get A.data (i, c) * q.2.getD c 0 = -f.getD i 0) :
    Follows P r.n1 w G := by
  refine ⟨hr, hb, fun x f it d q hg hx hf hq => ?_⟩
  obtain ⟨A, F, a1, a2, a3⟩ := C145_newton hw h2 hc hm hx0 hdx hx
  obtain ⟨g1, g2⟩ := hd x f it d q A hg hx hf hq (by rw [hP]; exact a1)
  rw [hP, a2] at hf
  cases hf
  have hv2 : 2 * r.n2 + r.n1 = r.n1 := by omega
  have k := a3 (fun c => q.2.getD c 0) g2 1 ((List.range r.n1).map fun i => x.getD i 0 + 1 * q.2.getD i 0)
    (fun i hi => getD_range_map _ hi)
  have cons : ∀ t z f, z.length = r.n1 → r.rhs t z = .ok f → ∑ i ∈ Finset.range r.n1, w i * f.getD i 0 = 0 := fun t z f a b => by
    have := hc t z f (by omega) b
    rwa [hv2] at this
  obtain ⟨f0, b1, b2⟩ := hw m.t0 m.x0 (by omega)
  obtain ⟨f1, d1, d2⟩ := hw (m.t0 + m.h) x (by omega)
  obtain ⟨m', e⟩ := map_ok _ hm (by unfold Rhs.varCount; omega) (x := x) (by omega) b1 b2 (by simpa [full, h2] using d1) d2
  have hf : (m.map r x >>= fun p => .ok p.2) = .ok f := a2
  rw [e] at hf
  cases hf
  dsimp only
  refine ⟨g1, ?_⟩
  rw [residual_quantity h2 (cons _ _ _ hx0 b1) (cons _ _ _ hx d1)]
  unfold quantity at k
  rw [hv2] at k
  have ey : ∑ i ∈ Finset.range r.n1, w i * ((List.range r.n1).map fun i => x.getD i 0 + 1 * q.2.getD i 0).getD i 0 =
      ∑ i ∈ Finset.range r.n1, w i * x.getD i 0 + ∑ i ∈ Finset.range r.n1, w i * q.2.getD i 0 := by
    rw [← Finset.sum_add_distrib]
    refine Finset.sum_congr rfl fun i hi => ?_
    rw [getD_range_map _ (Finset.mem_range.1 hi)]
    ring
  rw [ey] at k
  linarith

/-- A Newton run from a point with the right quantity stays at that quantity. -/
theorem run_quantity {D : Type} {P : Parts D K} (hP : Honest P) {n : Nat} {w : Nat → K} {G : D → Prop} (hG : Follows P n w G) {q : K}
    (hF : ∀ x f, x.length = n → P.F.map x = .ok f →
      ∑ i ∈ Finset.range n, w i * f.getD i 0 = ∑ i ∈ Finset.range n, w i * x.getD i 0 - q)
    {observers : Nat → Perf D K → Res Bool} {limit : Nat} {s s' : Perf D K} {st : RunStatus} (hs : Consistent P s) (hl : s.x.length = n)
    (hq : ∑ i ∈ Finset.range n, w i * s.x.getD i 0 = q) (hd : G s.dir) (h : (P.env observers).run limit s = .ok (s', st)) :
    s'.x.length = n ∧ ∑ i ∈ Finset.range n, w i * s'.x.getD i 0 = q ∧ G s'.dir := by
  refine (run_inv (P.env observers) (fun t : Perf D K => Consistent P t ∧ t.x.length = n ∧
    ∑ i ∈ Finset.range n, w i * t.x.getD i 0 = q ∧ G t.dir) ?_ ?_ ?_ ?_ ?_ ?_ h).1.2
  · intro s1 h1
    cases h1
    exact ⟨hs, hl, hq, hG.reset _ _ hd⟩
  · rintro it t ⟨r, st'⟩ ⟨c1, c2, c3, c4⟩ h1
    obtain ⟨-, g2, f, d, g3, g4, -, -, -, ⟨d', g5, g6⟩, -⟩ := iteration_ok hP c1 h1
    obtain ⟨k1, k2⟩ := hG.direction _ _ _ _ _ c4 c2 g3 g5
    obtain ⟨x, e1, e2, e3⟩ := addScaled_ok (addScaled_len g4) r.ratio
    rw [g4] at e1
    cases e1
    dsimp only at k1 k2 ⊢
    refine ⟨fun _ => g2, e2.trans c2, ?_, by rw [g6]; exact k1⟩
    have e : ∀ i ∈ Finset.range n, w i * r.x.getD i 0 = w i * t.x.getD i 0 + r.ratio * (w i * d.getD i 0) := by
      intro i hi
      rw [e3 i (by rw [c2]; exact Finset.mem_range.1 hi)]
      ring
    rw [Finset.sum_congr rfl e, Finset.sum_add_distrib, ← Finset.mul_sum, k2, hF _ _ c2 g3, c3]
    ring
  · intro n t r hI h1
    obtain ⟨b, -, h1⟩ := bind_inv h1
    cases h1
    exact hI
  · intro t r hI h1
    cases h1
    exact hI
  · rintro b t r ⟨c1, c2, c3, c4⟩ h1
    cases h1
    exact ⟨c1, c2, c3, hG.report _ _ c4⟩
  · rintro s1 s2 s3 h1 ⟨-, -, -, c4⟩ h3
    cases h1
    cases h3
    exact ⟨(fun h => by cases h), hl, hq, hG.reset _ _ c4⟩

/-- C145: for equations of first order, a step of implicit Euler from the default initial guess keeps the quantity exactly, whatever
tolerance the Newton solver has, however many iterations it makes and however it truncates them, provided the descent direction follows
the weights. -/
theorem C145_exact {D E : Type} (M : IMethod D K E) {tl : Nat} (hP : ∀ F, (M.parts F).F = F ∧ SimpleSearch (M.parts F) tl)
    (hec : M.ec = none) (hor : M.order = none) (hpr : M.predictor = none) {s s' : ISolver D K E} {tr : RK.Trunc}
    (h : s.doStep M = .ok (s', tr)) (hw : Works (M.rhs s.ec)) (h2 : (M.rhs s.ec).n2 = 0) {w : Nat → K} (hc : Conserves (M.rhs s.ec) w)
    (hx0 : s.map.x0.length = (M.rhs s.ec).n1) {G : D → Prop}
    (hG : Follows (M.parts ((s.map.setTimeStep s.hInit).mapping (M.rhs s.ec))) (M.rhs s.ec).n1 w G) (hd : G s.perf.dir) :
    quantity (M.rhs s.ec) w s'.map.x0 = quantity (M.rhs s.ec) w s.map.x0 ∧ s'.map.x0.length = (M.rhs s.ec).n1 ∧ G s'.perf.dir := by
  have hv2 : 2 * (M.rhs s.ec).n2 + (M.rhs s.ec).n1 = (M.rhs s.ec).n1 := by omega
  unfold ISolver.doStep at h
  dsimp only at h
  obtain ⟨m, hm⟩ : ∃ m, m = s.map.setTimeStep s.hInit := ⟨_, rfl⟩
  rw [← hm] at h hG
  have e1 : m.x0 = s.map.x0 := by rw [hm]; rfl
  have hfr : Fresh (M.rhs s.ec) m := by rw [hm]; exact fun h => by cases h
  have hmap : M.mapping4Newton s.ec m = m.mapping (M.rhs s.ec) := by unfold IMethod.mapping4Newton; rw [hor]
  rw [hmap] at h
  obtain ⟨g, hg, h⟩ := bind_inv h
  have hg2 : g.2 = s.map.x0 := by
    unfold ISolver.guess at hg
    rw [hpr, hor] at hg
    dsimp only at hg
    obtain ⟨x, h3, hg⟩ := bind_inv hg
    cases hg
    unfold EMap.eqnInitialState at h3
    rw [Vec.clone_val (block_val [] (by rw [e1]; omega))] at h3
    cases h3
    dsimp only
    rw [h2, e1, List.drop_zero, List.take_of_length_le (by omega)]
  obtain ⟨e, -, h⟩ := bind_inv h
  obtain ⟨⟨p, st⟩, hrun, h⟩ := bind_inv h
  obtain ⟨hPF, hPs⟩ := hP (m.mapping (M.rhs s.ec))
  have cons : ∀ t z f, z.length = (M.rhs s.ec).n1 → (M.rhs s.ec).rhs t z = .ok f →
      ∑ i ∈ Finset.range (M.rhs s.ec).n1, w i * f.getD i 0 = 0 := fun t z f a b => by
    have := hc t z f (by omega) b
    rwa [hv2] at this
  obtain ⟨r1, r2, r3⟩ := run_quantity (C21_simple _ _ hPs) hG (q := ∑ i ∈ Finset.range (M.rhs s.ec).n1, w i * s.map.x0.getD i 0)
    (fun x f hx hf => by
      rw [hPF] at hf
      obtain ⟨f0, b1, b2⟩ := hw m.t0 m.x0 (by rw [e1]; omega)
      obtain ⟨f1, d1, d2⟩ := hw (m.t0 + m.h) x (by omega)
      obtain ⟨m', q⟩ := map_ok _ hfr (by rw [e1]; unfold Rhs.varCount; omega) (x := x) (by omega) b1 b2 (by simpa [full, h2] using d1) d2
      have hf : (m.map (M.rhs s.ec) x >>= fun p => .ok p.2) = .ok f := hf
      rw [q] at hf
      cases hf
      dsimp only
      rw [residual_quantity h2 (cons _ _ _ (by rw [e1]; exact hx0) b1) (cons _ _ _ hx d1), e1])
    (fun h => by cases h) (by show g.2.length = _; rw [hg2]; exact hx0)
    (by show ∑ i ∈ Finset.range (M.rhs s.ec).n1, w i * g.2.getD i 0 = _; rw [hg2]) (hG.reset _ _ hd) hrun
  dsimp only at r1 r2 r3 h
  split at h
  · cases h
  rw [hor, hec] at h
  obtain ⟨eqn, heqn, h⟩ := bind_inv h
  cases heqn
  obtain ⟨buf, hbuf, h⟩ := bind_inv h
  obtain ⟨q, hq, h⟩ := bind_inv h
  cases hq
  cases h
  unfold EMap.computeOdeState at hbuf
  rw [expandState_ok _ _ (Vec.resize_length _ _) (by rw [e1]; unfold Rhs.varCount; omega) (by omega)] at hbuf
  have hb : buf = p.x := by
    cases hbuf
    simp [full, h2]
  refine ⟨?_, ?_, ?_⟩
  · show quantity _ w buf = _
    unfold quantity
    rw [hb, hv2, r2]
  · show buf.length = _
    rw [hb, r1]
  · exact r3

/-- C145: over a run of any number of steps, whatever the step size, the quantity stays exactly what it was. -/
theorem C145_exact_run {D E : Type} (M : IMethod D K E) {tl : Nat} (hP : ∀ F, (M.parts F).F = F ∧ SimpleSearch (M.parts F) tl)
    (hec : M.ec = none) (hor : M.order = none) (hpr : M.predictor = none) {e : E} (hw : Works (M.rhs e)) (h2 : (M.rhs e).n2 = 0)
    {w : Nat → K} (hc : Conserves (M.rhs e) w) {G : D → Prop}
    (hG : ∀ m : EMap K, Fresh (M.rhs e) m → m.x0.length = (M.rhs e).n1 → Follows (M.parts (m.mapping (M.rhs e))) (M.rhs e).n1 w G)
    {st : Nat → ISolver D K E} (h0 : (st 0).ec = e) (hx0 : (st 0).map.x0.length = (M.rhs e).n1) (hd : G (st 0).perf.dir) {N : Nat}
    (hst : ∀ k < N, ∃ tr, (st k).doStep M = .ok (st (k + 1), tr)) {k : Nat} (hk : k ≤ N) :
    quantity (M.rhs e) w (st k).map.x0 = quantity (M.rhs e) w (st 0).map.x0 := by
  suffices H : (st k).ec = e ∧ (st k).map.x0.length = (M.rhs e).n1 ∧ G (st k).perf.dir ∧
      quantity (M.rhs e) w (st k).map.x0 = quantity (M.rhs e) w (st 0).map.x0 from H.2.2.2
  induction k with
  | zero => exact ⟨h0, hx0, hd, rfl⟩
  | succ k ih =>
    obtain ⟨i1, i2, i3, i4⟩ := ih (by omega)
    obtain ⟨tr, h⟩ := hst k (by omega)
    obtain ⟨-, -, -, -, k5⟩ := step_keeps M h
    subst i1
    obtain ⟨q1, q2, q3⟩ := C145_exact M hP hec hor hpr h hw h2 hc i2 (hG _ (fun h => by cases h) i2) i3
    exact ⟨k5 hec, q2, q3, q1.trans i4⟩

end

section

/-- A reaction of second order, `x' = -x²`, `y' = x²`: nonlinear, the sum is constant. -/
def exPair : Rhs ℚ := ⟨0, 2, fun _ x => .ok [-(x.getD 0 0 * x.getD 0 0), x.getD 0 0 * x.getD 0 0]⟩

/-- A step mapping at 2 and 0 with step 1 -/
def exPairMap : EMap ℚ := (EMap.new : EMap ℚ).setInitialState 0 [2, 0]

/-- The hypotheses of `C145_newton` are met, at a point where the sum is 4 instead of 2. The direction is one that solves the system,
and it is not zero. -/
example : Works exPair ∧ exPair.n2 = 0 ∧ Conserves exPair (fun _ => 1) ∧ Fresh exPair exPairMap ∧
    exPairMap.x0.length = exPair.n1 ∧
    quantity exPair (fun _ => 1) [1, 3] = 4 ∧ quantity exPair (fun _ => 1) exPairMap.x0 = 2 ∧
    ∃ A F, computeJacobian (exPairMap.mapping exPair) 1 [1, 3] = .ok A ∧ (exPairMap.mapping exPair).map [1, 3] = .ok F ∧
      ∃ d : Nat → ℚ, (∀ i < 2, ∑ c ∈ Finset.range 2, Sparse.Data.get A.data (i, c) * d c = -F.getD i 0) ∧ d 0 + d 1 = -2 := by
  refine ⟨fun t x _ => ⟨_, rfl, rfl⟩, rfl, fun t x f _ hf => ?_, fun h => (by cases h), rfl, ?_, ?_, ?_⟩
  · cases hf
    simp [exPair, Finset.sum_range_succ]
  · norm_num [quantity, exPair, Finset.sum_range_succ]
  · norm_num [quantity, exPair, exPairMap, Finset.sum_range_succ, EMap.setInitialState]
  · obtain ⟨A, h1, h2⟩ := Res.exists_of_test (r := computeJacobian (exPairMap.mapping exPair) 1 [1, 3])
      (p := fun A => decide (Sparse.Data.get A.data (0, 0) ≠ 0 ∧ Sparse.Data.get A.data (0, 1) = 0 ∧
        Sparse.Data.get A.data (1, 1) = 1 ∧ Sparse.Data.get A.data (0, 0) + Sparse.Data.get A.data (1, 0) = 1)) (by decide +kernel)
    obtain ⟨F, k1, k2⟩ := Res.exists_of_test (r := (exPairMap.mapping exPair).map [1, 3])
      (p := fun F => decide (F.getD 0 0 + F.getD 1 0 = 2)) (by decide +kernel)
    obtain ⟨p1, p2, p3, p4⟩ := of_decide_eq_true h2
    have q := of_decide_eq_true k2
    refine ⟨A, F, h1, k1, fun i => if i = 0 then -F.getD 0 0 / Sparse.Data.get A.data (0, 0) else
      -F.getD 1 0 + Sparse.Data.get A.data (1, 0) * F.getD 0 0 / Sparse.Data.get A.data (0, 0), fun i hi => ?_, ?_⟩
    · rcases (show i = 0 ∨ i = 1 by omega) with rfl | rfl
      · simp [Finset.sum_range_succ, p2]
        field_simp
      · simp [Finset.sum_range_succ, p3]
        field_simp
        ring
    · have p5 : Sparse.Data.get A.data (1, 0) = 1 - Sparse.Data.get A.data (0, 0) := by linarith
      have q2 : F.getD 1 0 = 2 - F.getD 0 0 := by linarith
      simp only [p5, q2]
      norm_num
      field_simp
      ring

/-- A descent direction of one's own for this reaction: no Newton direction, but it follows the weights 1 and 1. -/
def exDamped (F : Mapping ℚ) : Parts Unit ℚ where
  F := F
  dirReset _ _ := ()
  direction _ f _ _ := .ok ((), [-f.getD 0 0 / 5, -f.getD 1 0 - 4 / 5 * f.getD 0 0])
  hardResetMayHelp _ := false
  reportSuccess _ _ := ()
  search d x f0 res := do
    let r ← lineSearch F 8 d x f0 res
    .ok (r.1, r.2.1)

/-- Implicit Euler with it -/
def exPairEuler : IMethod Unit ℚ Unit where
  rhs _ := exPair
  parts := exDamped
  observers _ _ := .ok false
  limit := 100
  order := none
  predictor := none
  predictorSteps := 1
  ec := none

/-- A solver at 2 and 0 with step 1 and a coarse tolerance -/
def exPairSolver : ISolver Unit ℚ Unit where
  map := exPairMap
  buf := []
  eqnbuf := []
  hard := true
  hInit := 1
  perf := ⟨[], [], false, 1, { exEst with absTol := 1 / 10, relTol := 1 }, ()⟩
  ec := ()

/-- The hypotheses of `C145_exact` and `C145_exact_run` are met. The Newton run stops short of the root, which is 1 and 1, and the sum is 2 all the same. -/
example : ∃ s' tr, exPairSolver.doStep exPairEuler = .ok (s', tr) ∧ s'.map.x0.getD 0 0 ≠ 1 ∧
    s'.map.x0.getD 0 0 + s'.map.x0.getD 1 0 = 2 ∧ (∀ F, (exPairEuler.parts F).F = F ∧ SimpleSearch (exPairEuler.parts F) 8) ∧
    exPairSolver.map.x0.length = exPair.n1 ∧
    ∀ F, Follows (exPairEuler.parts F) 2 (fun _ => 1) (fun _ => True) := by
  obtain ⟨p, h1, h2⟩ := Res.exists_of_test (r := exPairSolver.doStep exPairEuler)
    (p := fun p => decide (p.1.map.x0.getD 0 0 ≠ 1 ∧ p.1.map.x0.getD 0 0 + p.1.map.x0.getD 1 0 = 2)) (by decide +kernel)
  obtain ⟨h3, h4⟩ := of_decide_eq_true h2
  refine ⟨p.1, p.2, h1, h3, h4, fun F => ⟨rfl, fun _ _ _ _ => rfl⟩, rfl, fun F => ⟨fun _ _ _ => trivial, fun _ _ _ => trivial, ?_⟩⟩
  intro x f it d r _ _ _ h
  cases h
  refine ⟨trivial, ?_⟩
  simp only [Finset.sum_range_succ, Finset.sum_range_zero, List.getD_cons_zero, List.getD_cons_succ]
  ring

/-- The Newton direction of one's own for the reaction `x' = -x`, `y' = x` and step 1: the system is solved by hand. -/
def exExact (F : Mapping ℚ) : Parts Unit ℚ :=
  { exDamped F with direction := fun _ f _ _ => .ok ((), [-f.getD 0 0 / 2, -f.getD 1 0 - f.getD 0 0 / 2]) }

/-- The step mapping at 2 and 0 with step 1 -/
def exReactMap : EMap ℚ := ((EMap.new : EMap ℚ).setInitialState 0 [2, 0]).setTimeStep 1

/-- The hypotheses of `C145_follows` are met. -/
example : Works exReact ∧ exReact.n2 = 0 ∧ Conserves exReact (fun _ => 1) ∧ Fresh exReact exReactMap ∧
    exReactMap.x0.length = exReact.n1 ∧ (exExact (exReactMap.mapping exReact)).F = exReactMap.mapping exReact ∧
    ∀ x f it d q A, x.length = exReact.n1 → (exExact (exReactMap.mapping exReact)).F.map x = .ok f →
      (exExact (exReactMap.mapping exReact)).direction x f it d = .ok q → computeJacobian (exReactMap.mapping exReact) 1 x = .ok A →
      ∀ i < exReact.n1, ∑ c ∈ Finset.range exReact.n1, Sparse.Data.get A.data (i, c) * q.2.getD c 0 = -f.getD i 0 := by
  have hw : Works exReact := fun t x _ => ⟨_, rfl, rfl⟩
  have hm : Fresh exReact exReactMap := fun h => (by cases h)
  refine ⟨hw, rfl, fun t x f _ hf => ?_, hm, rfl, rfl, fun x f it d q A hx _ hq hA => ?_⟩
  · cases hf
    simp [exReact, Finset.sum_range_succ]
  · cases hq
    obtain ⟨A', J, a1, a2, a3⟩ := C146_euler hw rfl hm rfl (one_ne_zero (α := ℚ)) hx
    rw [hA] at a1
    cases a1
    obtain ⟨J', b1, -, b3⟩ := jac_get (r := exReact) (t := exReactMap.t0 + exReactMap.h) (one_ne_zero (α := ℚ)) hx rfl rfl
      (f := fun c => [-(x.set c (x.getD c 0 + 1)).getD 0 0, (x.set c (x.getD c 0 + 1)).getD 0 0]) (fun c _ => ⟨rfl, rfl⟩)
    rw [a2] at b1
    cases b1
    have hh : exReactMap.h * exReactMap.alpha = 1 := by decide +kernel
    match x, hx with
    | [a, b], _ =>
      have c00 := a3 0 0 (by decide) (by decide)
      have c01 := a3 0 1 (by decide) (by decide)
      have c10 := a3 1 0 (by decide) (by decide)
      have c11 := a3 1 1 (by decide) (by decide)
      rw [b3 _ _ (by decide) (by decide), hh] at c00 c01 c10 c11
      simp at c00 c01 c10 c11
      intro i hi
      have hi : i < 2 := hi
      show ∑ c ∈ Finset.range 2, _ = _
      rcases (show i = 0 ∨ i = 1 by omega) with rfl | rfl
      · rw [Finset.sum_range_succ, Finset.sum_range_one, c00, c01]
        simp
        ring
      · rw [Finset.sum_range_succ, Finset.sum_range_one, c10, c11]
        simp
        ring

end

end Verif.Ros
