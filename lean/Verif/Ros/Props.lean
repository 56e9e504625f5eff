import Verif.Ros.JacProps
import Verif.Witness

/-! # C37–C40: linear systems, Jacobian and cached factorizations of the Rosenbrock solvers -/

namespace Verif.Ros

open Verif.Res Verif.Alg Verif.Implicit Verif.Vec Verif.Sparse

set_option linter.unusedSectionVars false

variable {K : Type} [Field K] [DecidableEq K]

/-! ### C37 -/

/-- `linSolve` in a state reached by calls -/
theorem solve_ok {b : Base K} (hb : b.Ok) (hm : 0 < b.n2 + b.n1) {hd : K} (hcur : b.cur = some hd)
    (hr : b.Regular hd) {x : List K} (hx : x.length = b.n) :
    ∃ b' y, b.linSolve x hd = .ok (b', y) ∧ b'.Ok ∧ b.SameJ b' ∧ b'.cur = some hd ∧ y.length = b.n ∧
      ∀ i, i < b.n → y.getD i 0 - hd * ∑ j ∈ Finset.range b.n, b.jac i j * y.getD j 0 = x.getD i 0 := by
  rcases hb.cur with ⟨h1, -⟩ | ⟨h1, lu, h2⟩
  · rw [h1] at hcur; cases hcur
  · have hh : b.hd4W = hd := by rw [h1] at hcur; exact Option.some.inj hcur
    rw [hh] at h2
    obtain ⟨buf, lu', y, e1, -, -, e2, e3⟩ := linSolve_ok hb.j hm hcur h2 (hb.cached _ (find_mem h2)) hr hx
    obtain ⟨g1, g2, g3, -⟩ := linSolve_inv hb hx e1
    exact ⟨_, y, e1, g1, g2, by rw [g3, hcur], e2, e3⟩

/-- C37: after `updateW( hd )`, `linSolve` returns the solution of the whole system `(I - hd*J) y = x`, with
the rows of the second-order variables, although only the system of size `n2 + n1` with the matrix
`I - hd*J1 - hd^2*J2` is factorized. -/
theorem C37_linSolve {b : Base K} (hb : b.Ok) (hm : 0 < b.n2 + b.n1) {hd : K} (hhd : hd ≠ 0)
    (hr : b.Regular hd) {x : List K} (hx : x.length = b.n) :
    ∃ b1 b2 y, b.updateW hd = .ok b1 ∧ b1.linSolve x hd = .ok (b2, y) ∧ b2.Ok ∧ y.length = b.n ∧
      ∀ i, i < b.n → y.getD i 0 - hd * ∑ j ∈ Finset.range b.n, b.jac i j * y.getD j 0 = x.getD i 0 := by
  obtain ⟨b1, e1, e2, e3, e4⟩ := updateW_ok hb hd
  have hs := e3
  obtain ⟨s1, s2, s3, s4, s5⟩ := e3
  obtain ⟨b2, y, g1, g2, -, -, g3, g4⟩ := solve_ok e2 (by omega) (e4 (Or.inl hhd)) (hs.regular hr) (x := x)
    (by rw [s1]; exact hx)
  refine ⟨b1, b2, y, e1, g1, g2, by rw [g3, s1], fun i hi => ?_⟩
  rw [← g4 i (by omega), s1]
  simp only [hs.jac]

/-- C37: `mult` multiplies by the whole Jacobian. -/
theorem C37_mult {b : Base K} (hb : b.Ok) {dst x : List K} (hd : dst.length = b.n) (hx : x.length = b.n) :
    ∃ b' y, b.mult dst x = .ok (b', y) ∧ b'.Ok ∧ y.length = b.n ∧
      ∀ i, i < b.n → y.getD i 0 = ∑ j ∈ Finset.range b.n, b.jac i j * x.getD j 0 := by
  obtain ⟨buf, y, e1, -, e3, e4⟩ := mult_ok hb.j hd hx
  exact ⟨_, y, e1, (mult_inv hb hd hx e1).1, e3, e4⟩

/-! ### C38 -/

/-- C38, true part: `buildJacobian` puts into `J2` the difference quotients with respect to all positions,
and into `J1` those with respect to the first `n1` of the variables that follow the positions.
Missing: the last `n2` columns of `J1`; with `n2 > 0` the property is false (`C38_false`). -/
theorem C38_partial {b : Base K} {rhs : List K → Res (List K)} {dx : K} (hdx : dx ≠ 0) {x0 f0 : List K}
    (hn : b.n = 2 * b.n2 + b.n1) (hbuf : b.buf.length = b.n2 + b.n1) (hx : x0.length = b.n)
    (hl0 : f0.length = b.n) {f : Nat → List K} (hf : Shifts rhs dx x0 b.n f) :
    ∃ b', b.buildJacobian rhs dx x0 f0 = .ok b' ∧
      ∀ r, r < b.n2 + b.n1 →
        (∀ c, c < b.n2 → b'.jac (b.n2 + r) c = ((f c).getD (b.n2 + r) 0 - f0.getD (b.n2 + r) 0) / dx) ∧
        (∀ c, c < b.n1 → b'.jac (b.n2 + r) (b.n2 + c) =
          ((f (b.n2 + c)).getD (b.n2 + r) 0 - f0.getD (b.n2 + r) 0) / dx) ∧
        ∀ c, b.n1 ≤ c → b'.jac (b.n2 + r) (b.n2 + c) = 0 := by
  obtain ⟨b', e1, -, -, e2, e3, -, -, e4, e5⟩ := build_ok hdx hn hbuf hx hl0 hf
  refine ⟨b', e1, fun r hr => ⟨fun c hc => ?_, fun c hc => ?_, fun c hc => ?_⟩⟩
  · unfold Base.jac
    rw [e2, if_neg (by omega), if_pos hc, Nat.add_sub_cancel_left, e5, if_pos ⟨hc, hr⟩]
  · unfold Base.jac
    rw [e2, if_neg (by omega), if_neg (by omega), Nat.add_sub_cancel_left, Nat.add_sub_cancel_left, e4,
      if_pos ⟨hc, hr⟩]
  · unfold Base.jac
    rw [e2, if_neg (by omega), if_neg (by omega), Nat.add_sub_cancel_left, Nat.add_sub_cancel_left, e4,
      if_neg (by omega)]

/-- C38 for systems without second-order variables: all columns are there. -/
theorem C38_firstOrder {b : Base K} {rhs : List K → Res (List K)} {dx : K} (hdx : dx ≠ 0) {x0 f0 : List K}
    (hn : b.n = b.n1) (h2 : b.n2 = 0) (hbuf : b.buf.length = b.n1) (hx : x0.length = b.n)
    (hl0 : f0.length = b.n) {f : Nat → List K} (hf : Shifts rhs dx x0 b.n f) :
    ∃ b', b.buildJacobian rhs dx x0 f0 = .ok b' ∧
      ∀ r c, r < b.n → c < b.n → b'.jac r c = ((f c).getD r 0 - f0.getD r 0) / dx := by
  obtain ⟨b', e1, e2⟩ := C38_partial hdx (b := b) (by omega) (by omega) hx hl0 hf
  refine ⟨b', e1, fun r c hr hc => ?_⟩
  have := (e2 r (by omega)).2.1 c (by omega)
  simpa [h2] using this

/-- C38: on a linear system without second-order variables the Jacobian is the matrix of the system, for
every nonzero increment. -/
theorem C38_affine {b : Base K} {rhs : List K → Res (List K)} {dx : K} (hdx : dx ≠ 0) {x0 f0 : List K}
    (hn : b.n = b.n1) (h2 : b.n2 = 0) (hbuf : b.buf.length = b.n1) (hx : x0.length = b.n)
    {A : Nat → Nat → K} {a : Nat → K}
    (hA : ∀ x, x.length = b.n → ∃ y, rhs x = .ok y ∧ y.length = b.n ∧
      ∀ i, i < b.n → y.getD i 0 = a i + ∑ j ∈ Finset.range b.n, A i j * x.getD j 0)
    (hf0 : rhs x0 = .ok f0) :
    ∃ b', b.buildJacobian rhs dx x0 f0 = .ok b' ∧ ∀ r c, r < b.n → c < b.n → b'.jac r c = A r c := by
  have hs : ∀ i, ∃ y, rhs (x0.set i (x0.getD i 0 + dx)) = .ok y ∧ y.length = b.n ∧
      ∀ r, r < b.n → y.getD r 0 = a r + ∑ j ∈ Finset.range b.n, A r j * (x0.set i (x0.getD i 0 + dx)).getD j 0 :=
    fun i => hA _ (by simpa using hx)
  choose f g1 g2 g3 using hs
  obtain ⟨y, y1, y2, y3⟩ := hA x0 hx
  rw [hf0] at y1
  cases y1
  obtain ⟨b', e1, e2⟩ := C38_firstOrder hdx hn h2 hbuf hx y2 (fun i _ => ⟨g1 i, g2 i⟩ : Shifts rhs dx x0 b.n f)
  refine ⟨b', e1, fun r c hr hc => ?_⟩
  rw [e2 r c hr hc, g3 c r hr, y3 r hr, add_sub_add_left_eq_sub, ← Finset.sum_sub_distrib,
    Finset.sum_eq_single c]
  · rw [getD_set (by omega), if_pos rfl]
    field_simp
    ring
  · intro j hj hjc
    rw [getD_set (by omega), if_neg hjc, sub_self]
  · intro h
    exact absurd (Finset.mem_range.2 hc) h

/-- A damped oscillator, `p' = v`, `v' = -p - v` -/
def damped : Rhs ℚ := ⟨1, 0, fun _ x => do
  let p ← at' x 0
  let v ← at' x 1
  .ok [v, -p - v]⟩

/-- C38 is false with second-order variables: the derivative of the damping force with respect to the velocity
is -1, but the Jacobian of the damped oscillator has 0 in its place. -/
theorem C38_false : ∃ b, ({ (Base.new : Base ℚ) with n := 2, n2 := 1, buf := [0] } : Base ℚ).buildJacobian
      (damped.rhs 0) 1 [1, 1] [1, -2] = .ok b ∧ damped.rhs 0 [1, 1] = .ok [1, -2] ∧
      damped.rhs 0 [1, 2] = .ok [2, -3] ∧ b.jac 1 0 = -1 ∧ b.jac 1 1 = 0 := by
  obtain ⟨b, h1, h2⟩ := Res.exists_of_test
    (r := ({ (Base.new : Base ℚ) with n := 2, n2 := 1, buf := [0] } : Base ℚ).buildJacobian
      (damped.rhs 0) 1 [1, 1] [1, -2])
    (p := fun b => decide (b.jac 1 0 = -1 ∧ b.jac 1 1 = 0)) (by decide +kernel)
  have := of_decide_eq_true h2
  exact ⟨b, h1, by decide +kernel, by decide +kernel, this⟩

/-- The hypotheses of `C37_linSolve`, `C37_mult` and `C38_partial` are met: the Jacobian of the damped
oscillator, and `hd = 1/2`. -/
theorem damped_ok : ∃ b : Base ℚ, ({ (Base.new : Base ℚ) with n := 2, n2 := 1, buf := [0] } : Base ℚ).buildJacobian
      (damped.rhs 0) 1 [1, 1] [1, -2] = .ok b ∧ b.Ok ∧ b.n = 2 ∧ b.n2 = 1 ∧ b.n1 = 0 ∧ b.cur = none ∧
      ∀ hd, b.Regular hd := by
  obtain ⟨b, e1, e2, e3, e4, e5, e6, -, e7, e8⟩ := build_ok
    (b := { (Base.new : Base ℚ) with n := 2, n2 := 1, buf := [0] }) (rhs := damped.rhs 0) (dx := 1) one_ne_zero
    (x0 := [1, 1]) (f0 := [1, -2]) rfl rfl rfl rfl (f := fun i => if i = 0 then [1, -3] else [2, -3])
    (fun i hi => by
      have : i = 0 ∨ i = 1 := by simp only at hi; omega
      rcases this with rfl | rfl <;> exact ⟨by decide +kernel, rfl⟩)
  refine ⟨b, e1, e2, e3, e4, e5, e6, fun hd => ⟨fun k hk => ?_, ?_⟩⟩
  · rw [e4, e5] at hk
    have : k = 0 ∨ k = 1 := by simp only [Base.new] at hk; omega
    rcases this with rfl | rfl
    · simp
    · rw [Matrix.det_fin_one]
      show b.w hd 0 0 ≠ 0
      unfold Base.w
      rw [e7, e8]
      norm_num [Base.new]
      nlinarith [sq_nonneg hd]
  · rintro r c hrc ⟨r', -, hp⟩
    have := hp.2.1
    rw [e4, e5] at this
    simp only [Base.new] at this
    omega

example : ∃ b : Base ℚ, ∃ b1 b2 y, b.n2 = 1 ∧ b.updateW (1 / 2) = .ok b1 ∧
    b1.linSolve [1, 2] (1 / 2) = .ok (b2, y) ∧ y.length = 2 ∧
    ∀ i, i < 2 → y.getD i 0 - 1 / 2 * ∑ j ∈ Finset.range 2, b.jac i j * y.getD j 0 = [1, 2].getD i 0 := by
  obtain ⟨b, -, h1, h2, h3, h4, -, h5⟩ := damped_ok
  obtain ⟨b1, b2, y, e1, e2, -, e4, e5⟩ := C37_linSolve h1 (by omega) (hd := 1 / 2) (by norm_num) (h5 _) (x := [1, 2])
    (by rw [h2]; rfl)
  rw [h2] at e4 e5
  exact ⟨b, b1, b2, y, h3, e1, e2, e4, e5⟩

example : ∃ b : Base ℚ, ∃ b' y, b.n2 = 1 ∧ b.mult [0, 0] [1, 2] = .ok (b', y) := by
  obtain ⟨b, -, h1, h2, h3, -⟩ := damped_ok
  obtain ⟨b', y, e1, -⟩ := C37_mult h1 (dst := [0, 0]) (x := [1, 2]) (by rw [h2]; rfl) (by rw [h2]; rfl)
  exact ⟨b, b', y, h3, e1⟩

/-- The hypotheses of `C38_affine` and `C38_firstOrder` are met by `x' = 3 - 2x`. -/
example : ∃ b', ({ (Base.new : Base ℚ) with n := 1, n1 := 1, buf := [0] } : Base ℚ).buildJacobian
      (fun x => do let v ← at' x 0; .ok [3 - 2 * v]) (1 / 10) [5] [-7] = .ok b' ∧
      ∀ r c, r < 1 → c < 1 → b'.jac r c = -2 := by
  refine C38_affine (b := { (Base.new : Base ℚ) with n := 1, n1 := 1, buf := [0] }) (by norm_num) rfl rfl rfl rfl
    (A := fun _ _ => -2) (a := fun _ => 3) (fun x hx => ?_) (by decide +kernel)
  obtain ⟨v, rfl⟩ := List.length_eq_one_iff.1 hx
  refine ⟨[3 - 2 * v], rfl, rfl, fun i hi => ?_⟩
  have : i = 0 := by simp only at hi; omega
  subst this
  simp
  ring

/-! ### C39 -/

/-- The states of the base class after calls from derived classes: a hard `initStep` on whatever object, then
any sequence of soft `initStep`s and of `linSolve` and `mult` calls that return, with whatever arguments of
the right size -/
inductive Run : Base K → Prop
  | hard {b b' : Base K} {r : Rhs K} {dx t : K} {x0 f0 : List K} {f : Nat → List K} {hd : K}
      (hdx : dx ≠ 0) (hx : x0.length = r.varCount) (hl0 : f0.length = r.varCount)
      (hf : Shifts (r.rhs t) dx x0 r.varCount f) (h : b.initStep r dx true t x0 f0 hd = .ok b') : Run b'
  | soft {b b' : Base K} {r : Rhs K} {dx t : K} {x0 f0 : List K} {hd : K} (hb : Run b)
      (h : b.initStep r dx false t x0 f0 hd = .ok b') : Run b'
  | linSolve {b b' : Base K} {x y : List K} {hd : K} (hb : Run b) (hx : x.length = b.n)
      (h : b.linSolve x hd = .ok (b', y)) : Run b'
  | mult {b b' : Base K} {dst x y : List K} (hb : Run b) (hd : dst.length = b.n) (hx : x.length = b.n)
      (h : b.mult dst x = .ok (b', y)) : Run b'

theorem initStep_hard {b : Base K} {r : Rhs K} {dx t : K} {x0 f0 : List K} {f : Nat → List K} (hd : K)
    (hdx : dx ≠ 0) (hx : x0.length = r.varCount) (hl0 : f0.length = r.varCount)
    (hf : Shifts (r.rhs t) dx x0 r.varCount f) :
    ∃ b0 b', ({ b with n := r.varCount, n2 := r.n2, n1 := r.n1, buf := Vec.resize b.buf (r.n2 + r.n1) } :
        Base K).buildJacobian (r.rhs t) dx x0 f0 = .ok b0 ∧ b0.Ok ∧ b0.n = r.varCount ∧ b0.n2 = r.n2 ∧
      b0.n1 = r.n1 ∧ b.initStep r dx true t x0 f0 hd = .ok b' ∧ b'.Ok ∧ b0.SameJ b' ∧
      (hd ≠ 0 → b'.cur = some hd) := by
  obtain ⟨b0, e1, e2, e3, e4, e5, e6, e7, -⟩ := build_ok
    (b := ({ b with n := r.varCount, n2 := r.n2, n1 := r.n1, buf := Vec.resize b.buf (r.n2 + r.n1) } : Base K))
    hdx rfl (resize_length _ _) hx hl0 hf
  obtain ⟨b', g1, g2, g3, g4⟩ := updateW_ok e2 hd
  refine ⟨b0, b', e1, e2, e3, e4, e5, ?_, g2, g3, fun h => g4 (Or.inl h)⟩
  unfold Base.initStep
  rw [if_pos rfl, e1, bind_ok, g1]

theorem run_ok {b : Base K} (h : Run b) : b.Ok := by
  induction h with
  | hard hdx hx hl0 hf h =>
    obtain ⟨b0, b', -, -, -, -, -, e1, e2, -⟩ := initStep_hard _ hdx hx hl0 hf
    rw [h] at e1
    cases e1
    exact e2
  | @soft b b' r dx t x0 f0 hd hb h ih =>
    obtain ⟨b1, e1, e2, -⟩ := updateW_ok ih hd
    unfold Base.initStep at h
    rw [if_neg (by decide), bind_ok, e1] at h
    cases h
    exact e2
  | linSolve hb hx h ih => exact (linSolve_inv ih hx h).1
  | mult hb hd hx h ih => exact (mult_inv ih hd hx h).1

/-- C39: after any sequence of calls, `updateW( hd )` succeeds, keeps the Jacobian, makes `m_W_LU` point at a
factorizer that was given `I - hd*J1 - hd^2*J2` for the current Jacobian and used for solving only, and keeps at
most 100 factorizations.
Excluded is only the argument zero in the first `updateW` after `buildJacobian` (`C39_false`). -/
theorem C39_partial {b : Base K} (h : Run b) {hd : K} (hhd : hd ≠ 0 ∨ b.cur ≠ none) :
    ∃ b' lu, b.updateW hd = .ok b' ∧ b'.deref = .ok (hd, lu) ∧ b'.FactorOf hd lu ∧ b.SameJ b' ∧
      b'.cache.length ≤ 100 := by
  obtain ⟨b', e1, e2, e3, e4⟩ := updateW_ok (run_ok h) hd
  have hc := e4 hhd
  rcases e2.cur with ⟨h1, -⟩ | ⟨h1, lu, h2⟩
  · rw [h1] at hc; cases hc
  · have hh : b'.hd4W = hd := by rw [h1] at hc; exact Option.some.inj hc
    rw [hh] at h1 h2
    refine ⟨b', lu, e1, ?_, e2.cached _ (find_mem h2), e3, e2.size⟩
    unfold Base.deref
    rw [h1]
    dsimp only
    rw [h2]

/-- C39: and the factorization in use stays that of the last `updateW` in whatever calls follow, until the next
`initStep`. -/
theorem C39_stays {b b' : Base K} (h : Run b) {x y : List K} (hx : x.length = b.n) :
    (∀ hd, b.linSolve x hd = .ok (b', y) → b'.cur = b.cur ∧ b.SameJ b') ∧
    (∀ dst, dst.length = b.n → b.mult dst x = .ok (b', y) → b'.cur = b.cur ∧ b.SameJ b') :=
  ⟨fun _ e => ⟨(linSolve_inv (run_ok h) hx e).2.2.1, (linSolve_inv (run_ok h) hx e).2.1⟩,
    fun _ hd e => ⟨(mult_inv (run_ok h) hd hx e).2.2.1, (mult_inv (run_ok h) hd hx e).2.1⟩⟩

/-- C39 is false for a zero step (or `m_d = 0`): `m_hd4W` is zero after `buildJacobian`, so `updateW( 0 )` makes no
factorization, and `linSolve` goes through a null pointer. -/
theorem C39_false : ∃ b b' : Base ℚ, Run b ∧ b.updateW 0 = .ok b' ∧ b'.linSolve [1, 2] 0 = .error .ub := by
  obtain ⟨b0, b', e1, e2, e3, e4, e5, e6, e7, e8, -⟩ := initStep_hard (b := (Base.new : Base ℚ)) (r := damped)
    (dx := 1) (t := 0) (x0 := [1, 1]) (f0 := [1, -2]) (f := fun i => if i = 0 then [1, -3] else [2, -3]) 0
    one_ne_zero rfl rfl (fun i hi => by
      have : i = 0 ∨ i = 1 := by simp [damped, Rhs.varCount] at hi; omega
      rcases this with rfl | rfl <;> exact ⟨by decide +kernel, rfl⟩)
  have hrun : Run b' := Run.hard (f := fun i => if i = 0 then [1, -3] else [2, -3]) one_ne_zero rfl rfl
    (fun i hi => by
      have : i = 0 ∨ i = 1 := by simp [damped, Rhs.varCount] at hi; omega
      rcases this with rfl | rfl <;> exact ⟨by decide +kernel, rfl⟩) e6
  obtain ⟨b1, g1, -⟩ := updateW_ok e7 0
  refine ⟨b', b1, hrun, g1, ?_⟩
  obtain ⟨b2, k1, k2⟩ := Res.exists_of_test
    (r := (Base.new : Base ℚ).initStep damped 1 true 0 [1, 1] [1, -2] 0)
    (p := fun b => match b.updateW 0 with
      | .ok b1 => (match b1.linSolve [1, 2] 0 with | .error .ub => true | _ => false)
      | _ => false) (by decide +kernel)
  rw [e6] at k1
  cases k1
  rw [g1] at k2
  dsimp only at k2
  split at k2
  · assumption
  · cases k2

/-- The hypotheses of `C39_partial` are met: a second step size after a first. -/
example : ∃ b b' : Base ℚ, ∃ lu, Run b ∧ b.n2 = 1 ∧ b.updateW (1 / 3) = .ok b' ∧ b'.deref = .ok (1 / 3, lu) ∧
    b'.FactorOf (1 / 3) lu := by
  obtain ⟨b0, b', -, -, -, e4, -, e6, e7, e8, -⟩ := initStep_hard (b := (Base.new : Base ℚ)) (r := damped)
    (dx := 1) (t := 0) (x0 := [1, 1]) (f0 := [1, -2]) (f := fun i => if i = 0 then [1, -3] else [2, -3]) (1 / 2)
    one_ne_zero rfl rfl (fun i hi => by
      have : i = 0 ∨ i = 1 := by simp [damped, Rhs.varCount] at hi; omega
      rcases this with rfl | rfl <;> exact ⟨by decide +kernel, rfl⟩)
  have hrun : Run b' := Run.hard (f := fun i => if i = 0 then [1, -3] else [2, -3]) one_ne_zero rfl rfl
    (fun i hi => by
      have : i = 0 ∨ i = 1 := by simp [damped, Rhs.varCount] at hi; omega
      rcases this with rfl | rfl <;> exact ⟨by decide +kernel, rfl⟩) e6
  obtain ⟨b1, lu, g1, g2, g3, -⟩ := C39_partial hrun (hd := 1 / 3) (Or.inl (by norm_num))
  exact ⟨b', b1, lu, hrun, by rw [e8.2.1, e4]; rfl, g1, g2, g3⟩

end Verif.Ros
