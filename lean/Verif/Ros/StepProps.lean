import Verif.Ros.Props

/-! # C40: the linear systems in a step of the Rosenbrock solvers -/

namespace Verif.Ros

open Verif.Res Verif.Alg Verif.Implicit Verif.Vec Verif.Sparse

set_option linter.unusedSectionVars false

variable {K E : Type} [Field K] [LinearOrder K]

theorem plus_ok {x v : List K} {c : K} (h : x.length ≤ v.length) :
    ∃ y, plus x v c = .ok y ∧ y.length = x.length ∧
      ∀ i, i < x.length → y.getD i 0 = x.getD i 0 + v.getD i 0 * c := by
  refine ⟨_, addWhole_ok (mem := x) (s := .scale (.vec v) c) (v := v.map (· * c)) rfl rfl (by simpa using h),
    by simp, fun i hi => ?_⟩
  rw [getD_range_map _ hi, getD_scaled]

/-- The right-hand side is defined for all states of the right size. -/
def Total (r : Rhs K) : Prop := ∀ t x, x.length = r.varCount → ∃ y, r.rhs t x = .ok y ∧ y.length = r.varCount

/-- The product of the Jacobian and a vector -/
def Base.jmul (b : Base K) (x : List K) (i : Nat) : K := ∑ j ∈ Finset.range b.n, b.jac i j * x.getD j 0

theorem Base.SameJ.jmul {b b' : Base K} (h : b.SameJ b') (x : List K) (i : Nat) : b'.jmul x i = b.jmul x i := by
  unfold Base.jmul
  simp only [h.jac, h.1]

/-- `linSolve` for systems without second-order variables does not use its second argument. -/
theorem linSolve_arg {b : Base K} (hb : b.JOk) (h2 : b.n2 = 0) {x : List K} (hx : x.length = b.n) (hd hd' : K) :
    b.linSolve x hd = b.linSolve x hd' := by
  have hn := hb.n
  obtain ⟨buf, e1, e2, e3⟩ := mulJ2_ok hb hx
  have key : ∀ c : K, done (Vec.addAssign x ⟨b.n2, b.n2 + b.n1⟩ (.scale (.vec buf) c)) = .ok x := by
    intro c
    have : (⟨b.n2, b.n2 + b.n1⟩ : Tgt) = ⟨0, x.length⟩ := by rw [h2, hx, hn, h2]
    rw [this, addWhole_ok (v := buf.map (· * c)) rfl rfl (by simp; omega)]
    congr 1
    apply List.ext_getElem?
    intro i
    rw [List.getElem?_map]
    by_cases hi : i < x.length
    · rw [List.getElem?_range hi, List.getElem?_eq_getElem hi, Option.map_some, getD_scaled, e3 i (by omega), h2]
      simp [List.getD_eq_getElem?_getD, List.getElem?_eq_getElem hi]
    · rw [List.getElem?_eq_none (by simpa using hi), List.getElem?_eq_none (by simpa using hi)]
      rfl
  unfold Base.linSolve
  rw [e1]
  simp only [bind_ok, key]
  congr 1
  funext lu
  congr 1
  funext _
  congr 1
  funext r
  rw [h2]
  rfl

/-- `linSolve` with the factorization for `hd` -/
theorem solve_ok' {b : Base K} (hb : b.Ok) (hm : 0 < b.n2 + b.n1) {hd hd' : K} (hcur : b.cur = some hd)
    (hr : b.Regular hd) (ha : hd' = hd ∨ b.n2 = 0) {x : List K} (hx : x.length = b.n) :
    ∃ b' y, b.linSolve x hd' = .ok (b', y) ∧ b'.Ok ∧ b.SameJ b' ∧ b'.cur = some hd ∧ y.length = b.n ∧
      ∀ i, i < b.n → y.getD i 0 - hd * ∑ j ∈ Finset.range b.n, b.jac i j * y.getD j 0 = x.getD i 0 := by
  rcases ha with rfl | ha
  · exact solve_ok hb hm hcur hr hx
  · rw [linSolve_arg hb.j ha hx hd' hd]
    exact solve_ok hb hm hcur hr hx

/-- The equations of the first two stages of SW2(4), with the factorization for `hd` -/
structure StageEqs (M : Method K E) (s : St K E) (hd : K) (g : Stages K) : Prop where
  len1 : g.k1.length = s.base.n
  len2 : g.k2.length = s.base.n
  lenNext : g.next.length = s.base.n
  lenRhs : g.nextRhs.length = s.base.n
  k1 : ∀ i, i < s.base.n → g.k1.getD i 0 - hd * s.base.jmul g.k1 i = s.f0.getD i 0
  k2 : ∃ w f, w.length = s.base.n ∧ (∀ i, i < s.base.n → w.getD i 0 = s.x.getD i 0 + 2 / 3 * s.h * g.k1.getD i 0) ∧
    (M.rhs s.ec).rhs (s.t + 2 / 3 * s.h) w = .ok f ∧ f.length = s.base.n ∧
    ∀ i, i < s.base.n → g.k2.getD i 0 - hd * s.base.jmul g.k2 i =
      f.getD i 0 - 4 / 3 * s.h * M.d * s.base.jmul g.k1 i
  next : ∀ i, i < s.base.n → g.next.getD i 0 =
    s.x.getD i 0 + s.h * (1 / 4 * g.k1.getD i 0 + 3 / 4 * g.k2.getD i 0)
  nextRhs : (M.rhs s.ec).rhs (s.t + s.h) g.next = .ok g.nextRhs

theorem stages_ok {M : Method K E} {s : St K E} (hb : s.base.Ok) (hm : 0 < s.base.n2 + s.base.n1)
    {hd : K} (hcur : s.base.cur = some hd) (hr : s.base.Regular hd) (ha : s.h * M.d = hd ∨ s.base.n2 = 0) (hn : s.base.n = (M.rhs s.ec).varCount)
    (hx : s.x.length = s.base.n) (hf0 : s.f0.length = s.base.n) (ht : Total (M.rhs s.ec)) :
    ∃ g, s.stages M = .ok g ∧ g.base.Ok ∧ s.base.SameJ g.base ∧ g.base.cur = some hd ∧
      StageEqs M s hd g := by
  obtain ⟨b1, k1, a1, a2, a3, a4, a5, a6⟩ := solve_ok' hb hm hcur hr ha hf0
  obtain ⟨w, w1, w2, w3⟩ := plus_ok (x := s.x) (v := k1) (c := s.h * 2 / 3) (by omega)
  have lw : w.length = s.base.n := by omega
  obtain ⟨f, f1, f2⟩ := ht (s.t + s.h * 2 / 3) w (by omega)
  obtain ⟨b2, Jk, m1, m2, m3, m4⟩ := C37_mult a2 (dst := w) (x := k1) (by rw [a3.1]; omega) (by rw [a3.1]; omega)
  have s12 := (mult_inv a2 (by rw [a3.1]; omega) (by rw [a3.1]; omega) m1).2.1
  have c2 := (mult_inv a2 (by rw [a3.1]; omega) (by rw [a3.1]; omega) m1).2.2.1
  have s02 := a3.trans s12
  rw [a3.1] at m3 m4
  obtain ⟨p, p1, p2, p3⟩ := plus_ok (x := f) (v := Jk) (c := -4 / 3 * s.h * M.d) (by omega)
  have hb2 := s02.2.1
  have hb2' := s02.2.2.1
  obtain ⟨b3, k2, q1, q2, q3, q4, q5, q6⟩ := solve_ok' m2 (by omega) (by rw [c2, a4]) (s02.regular hr)
    (hb2.symm ▸ ha) (x := p)
    (by rw [s02.1]; omega)
  have s03 := s02.trans q3
  rw [s02.1] at q5 q6
  obtain ⟨n1, n2, n3, n4⟩ := plus_ok (x := s.x) (v := k1) (c := 1 / 4 * s.h) (by omega)
  obtain ⟨nx, x1, x2, x3⟩ := plus_ok (x := n1) (v := k2) (c := 3 / 4 * s.h) (by omega)
  obtain ⟨fr, r1, r2⟩ := ht (s.t + s.h) nx (by omega)
  have e23 : s.h * 2 / 3 = 2 / 3 * s.h := by ring
  refine ⟨⟨b3, k1, k2, nx, fr, 0⟩, ?_, q2, s03, q4, ⟨a5, q5, (by dsimp only; omega), (by dsimp only; omega), a6,
    ⟨w, f, lw, fun i hi => ?_, by rw [← e23]; exact f1, by omega, fun i hi => ?_⟩, fun i hi => ?_, r1⟩⟩
  · unfold St.stages
    dsimp only
    rw [a1, bind_ok, w1, bind_ok, f1, bind_ok, m1, bind_ok, p1, bind_ok, q1, bind_ok, n2, bind_ok, x1, bind_ok, r1,
      bind_ok]
  · rw [w3 i (by omega), e23]
    ring
  · have h6 := q6 i hi
    simp only [s02.jac] at h6
    have h4 := m4 i hi
    simp only [a3.jac] at h4
    rw [p3 i (by omega), h4] at h6
    unfold Base.jmul
    dsimp only
    rw [h6]
    ring
  · dsimp only
    rw [x3 i (by omega), n4 i (by omega)]
    ring

/-- The equations of the last two stages and of the error estimate `v` of SW2(4) -/
structure ErrorEqs (M : Method K E) (s : St K E) (hd : K) (g : Stages K) (k3 k4 v : List K) : Prop where
  len3 : k3.length = s.base.n
  len4 : k4.length = s.base.n
  lenErr : v.length = s.base.n
  eq3 : ∀ i, i < s.base.n → k3.getD i 0 - hd * s.base.jmul k3 i = g.nextRhs.getD i 0
  eq4 : ∃ w f, w.length = s.base.n ∧ (∀ i, i < s.base.n → w.getD i 0 = g.next.getD i 0 + 2 / 3 * s.h * k3.getD i 0) ∧
    (M.rhs s.ec).rhs (s.t + 5 / 3 * s.h) w = .ok f ∧ f.length = s.base.n ∧
    ∀ i, i < s.base.n → k4.getD i 0 - hd * s.base.jmul k4 i =
      f.getD i 0 + s.h * M.d * (2 / 3 * s.base.jmul g.k1 i + 6 * s.base.jmul g.k2 i)
  err : ∀ i, i < s.base.n → v.getD i 0 =
    s.h / 8 * (5 * (k3.getD i 0 - g.k2.getD i 0) + g.k1.getD i 0 - k4.getD i 0)

theorem getD_map_mul (l : List K) (c : K) (i : Nat) : (l.map (· * c)).getD i 0 = l.getD i 0 * c := by
  rw [List.getD_eq_getElem?_getD, List.getD_eq_getElem?_getD, List.getElem?_map]
  cases l[i]? <;> simp

theorem estimate_ok {n : Nat} {k1 k2 k3 k4 : List K} {c : K} (l1 : k1.length = n) (l2 : k2.length = n)
    (l3 : k3.length = n) (l4 : k4.length = n) :
    ∃ z1 z2 z3 z4 z5, done (Vec.subAssign k3 ⟨0, k3.length⟩ (.vec k2)) = .ok z1 ∧
      done (Vec.mulAssign z1 ⟨0, z1.length⟩ 5) = .ok z2 ∧ done (Vec.addAssign z2 ⟨0, z2.length⟩ (.vec k1)) = .ok z3 ∧
      done (Vec.subAssign z3 ⟨0, z3.length⟩ (.vec k4)) = .ok z4 ∧ done (Vec.mulAssign z4 ⟨0, z4.length⟩ c) = .ok z5 ∧
      z5.length = n ∧
      ∀ i, i < n → z5.getD i 0 = ((k3.getD i 0 - k2.getD i 0) * 5 + k1.getD i 0 - k4.getD i 0) * c := by
  have h1 : ∃ z, done (Vec.subAssign k3 ⟨0, k3.length⟩ (.vec k2)) = .ok z ∧ z.length = n ∧
      ∀ i, i < n → z.getD i 0 = k3.getD i 0 - k2.getD i 0 :=
    ⟨_, subWhole_ok (s := .vec k2) rfl rfl (by omega), by simp [l3], fun i hi => getD_range_map _ (by omega)⟩
  obtain ⟨z1, e1, g1, v1⟩ := h1
  have h2 : ∃ z, done (Vec.mulAssign z1 ⟨0, z1.length⟩ 5) = .ok z ∧ z.length = n ∧
      ∀ i, i < n → z.getD i 0 = z1.getD i 0 * 5 :=
    ⟨_, mulWhole_ok _ _, by simp [g1], fun i hi => getD_range_map _ (by omega)⟩
  obtain ⟨z2, e2, g2, v2⟩ := h2
  have h3 : ∃ z, done (Vec.addAssign z2 ⟨0, z2.length⟩ (.vec k1)) = .ok z ∧ z.length = n ∧
      ∀ i, i < n → z.getD i 0 = z2.getD i 0 + k1.getD i 0 :=
    ⟨_, addWhole_ok (s := .vec k1) rfl rfl (by omega), by simp [g2], fun i hi => getD_range_map _ (by omega)⟩
  obtain ⟨z3, e3, g3, v3⟩ := h3
  have h4 : ∃ z, done (Vec.subAssign z3 ⟨0, z3.length⟩ (.vec k4)) = .ok z ∧ z.length = n ∧
      ∀ i, i < n → z.getD i 0 = z3.getD i 0 - k4.getD i 0 :=
    ⟨_, subWhole_ok (s := .vec k4) rfl rfl (by omega), by simp [g3], fun i hi => getD_range_map _ (by omega)⟩
  obtain ⟨z4, e4, g4, v4⟩ := h4
  have h5 : ∃ z, done (Vec.mulAssign z4 ⟨0, z4.length⟩ c) = .ok z ∧ z.length = n ∧
      ∀ i, i < n → z.getD i 0 = z4.getD i 0 * c :=
    ⟨_, mulWhole_ok _ _, by simp [g4], fun i hi => getD_range_map _ (by omega)⟩
  obtain ⟨z5, e5, g5, v5⟩ := h5
  refine ⟨z1, z2, z3, z4, z5, e1, e2, e3, e4, e5, g5, fun i hi => ?_⟩
  rw [v5 i hi, v4 i hi, v3 i hi, v2 i hi, v1 i hi]

theorem errorStages_ok {M : Method K E} {s : St K E} {g : Stages K} (hdis : M.disableErrorCheck = false)
    (hb : g.base.Ok) (hs : s.base.SameJ g.base) (hm : 0 < s.base.n2 + s.base.n1)
    {hd : K} (hcur : g.base.cur = some hd) (hr : s.base.Regular hd) (ha : s.h * M.d = hd ∨ s.base.n2 = 0) (hn : s.base.n = (M.rhs s.ec).varCount)
    (ht : Total (M.rhs s.ec)) (hg : StageEqs M s hd g) :
    ∃ b k3 k4 v, s.errorStages M g = .ok { g with base := b, err := M.norm v } ∧ b.Ok ∧ s.base.SameJ b ∧
      b.cur = some hd ∧ ErrorEqs M s hd g k3 k4 v := by
  have l1 := hg.len1
  have l2 := hg.len2
  have l3 := hg.lenNext
  have l4 := hg.lenRhs
  have n0 := hs.1
  have n2' := hs.2.1
  have n1' := hs.2.2.1
  obtain ⟨b1, k3, a1, a2, a3, a4, a5, a6⟩ := solve_ok' hb (by omega) hcur (hs.regular hr)
    (n2'.symm ▸ ha) (x := g.nextRhs) (by omega)
  have s01 := hs.trans a3
  have n01 := s01.1
  rw [n0] at a5 a6
  obtain ⟨w, w1, w2, w3⟩ := plus_ok (x := g.next) (v := k3) (c := s.h * 2 / 3) (by omega)
  have lw : w.length = s.base.n := by omega
  obtain ⟨f, f1, f2⟩ := ht (s.t + s.h * 5 / 3) w (by omega)
  obtain ⟨u, u1, u2, u3⟩ := plus_ok (x := g.k1.map (· * (2 / 3))) (v := g.k2) (c := 6) (by simp; omega)
  rw [List.length_map] at u2 u3
  obtain ⟨b2, Jb, m1, m2, m3, m4⟩ := C37_mult a2 (dst := w) (x := u) (by omega) (by omega)
  have s12 := (mult_inv a2 (by omega) (by omega) m1).2.1
  have c2 := (mult_inv a2 (by omega) (by omega) m1).2.2.1
  have s02 := s01.trans s12
  rw [n01] at m3 m4
  obtain ⟨p, p1, p2, p3⟩ := plus_ok (x := f) (v := Jb) (c := s.h * M.d) (by omega)
  have h1 := s02.1
  have h2 := s02.2.1
  have h3 := s02.2.2.1
  obtain ⟨b3, k4, q1, q2, q3, q4, q5, q6⟩ := solve_ok' m2 (by omega) (by rw [c2, a4]) (s02.regular hr)
    (h2.symm ▸ ha) (x := p)
    (by omega)
  have s03 := s02.trans q3
  rw [h1] at q5 q6
  obtain ⟨z1, z2, z3, z4, z5, e1, e2, e3, e4, e5, lz5, vz5⟩ := estimate_ok (c := 1 / 8 * s.h) l1 l2 a5 q5
  have e23 : s.h * 2 / 3 = 2 / 3 * s.h := by ring
  have e53 : s.h * 5 / 3 = 5 / 3 * s.h := by ring
  refine ⟨b3, k3, k4, z5, ?_, q2, s03, q4, ⟨a5, q5, lz5, fun i hi => ?_, ⟨w, f, lw, fun i hi => ?_,
    by rw [← e53]; exact f1, f2.trans hn.symm, fun i hi => ?_⟩, fun i hi => ?_⟩⟩
  · unfold St.errorStages
    rw [if_neg (by rw [hdis]; decide)]
    dsimp only
    rw [a1, bind_ok, w1, bind_ok, f1, bind_ok, u1, bind_ok, m1, bind_ok, p1, bind_ok, q1, bind_ok, e1, bind_ok, e2,
      bind_ok, e3, bind_ok, e4, bind_ok, e5, bind_ok]
  · have := a6 i hi
    simp only [hs.jac] at this
    exact this
  · rw [w3 i (by rw [l3]; exact hi), e23]
    ring
  · have h6 := q6 i hi
    simp only [s02.jac] at h6
    have h4 := m4 i hi
    simp only [s01.jac] at h4
    rw [p3 i (by rw [f2, ← hn]; exact hi), h4] at h6
    unfold Base.jmul
    rw [h6]
    have : ∑ j ∈ Finset.range s.base.n, s.base.jac i j * u.getD j 0 =
        2 / 3 * ∑ j ∈ Finset.range s.base.n, s.base.jac i j * g.k1.getD j 0 +
        6 * ∑ j ∈ Finset.range s.base.n, s.base.jac i j * g.k2.getD j 0 := by
      rw [Finset.mul_sum, Finset.mul_sum, ← Finset.sum_add_distrib]
      refine Finset.sum_congr rfl (fun j hj => ?_)
      rw [u3 j (by rw [l1]; exact Finset.mem_range.1 hj), getD_map_mul]
      ring
    rw [this]
    ring
  · rw [vz5 i hi]
    ring

/-! ### C40 -/

/-- What holds after the first `initStep`: sizes are those of the right-hand side, which are not changed by the
event controller. -/
structure Live (n2 n1 : Nat) (s : St K E) : Prop where
  ok : s.base.Ok
  pos : s.base.n2 = n2
  fst : s.base.n1 = n1
  x : s.x.length = 2 * n2 + n1
  f0 : s.f0.length = 2 * n2 + n1

/-- The right-hand side with all states of the event controller has the same sizes, and is defined for all states
of the right size. -/
def Uniform (M : Method K E) (n2 n1 : Nat) : Prop :=
  ∀ e, (M.rhs e).n2 = n2 ∧ (M.rhs e).n1 = n1 ∧ Total (M.rhs e)

theorem shifts_total {r : Rhs K} (h : Total r) {dx t : K} {x0 : List K} (hx : x0.length = r.varCount) :
    ∃ f, Shifts (r.rhs t) dx x0 r.varCount f := by
  have : ∀ i, ∃ y, r.rhs t (x0.set i (x0.getD i 0 + dx)) = .ok y ∧ y.length = r.varCount :=
    fun i => h t _ (by simpa using hx)
  choose f hf using this
  exact ⟨f, fun i _ => hf i⟩

theorem initStep2_ok {M : Method K E} {n2 n1 : Nat} {s : St K E}
    (hu : (M.rhs s.ec).n2 = n2 ∧ (M.rhs s.ec).n1 = n1 ∧ Total (M.rhs s.ec)) (hdx : M.dx ≠ 0)
    (h : Live n2 n1 s ∨ (s.k1 = [] ∧ s.x.length = 2 * n2 + n1)) :
    ∃ s', s.initStep2 M = .ok s' ∧ Live n2 n1 s' ∧ s'.h = s.h ∧ s'.t = s.t ∧ s'.x = s.x ∧ s'.ec = s.ec ∧
      (s.k1 ≠ [] → s.base.SameJ s'.base ∧ s'.f0 = s.f0) ∧
      (s.k1 = [] → (M.rhs s.ec).rhs s.t s.x = .ok s'.f0 ∧
        ∃ b0, ({ s.base with n := 2 * n2 + n1, n2 := n2, n1 := n1, buf := Vec.resize s.base.buf (n2 + n1) } :
          Base K).buildJacobian ((M.rhs s.ec).rhs s.t) M.dx s.x s'.f0 = .ok b0 ∧ b0.Ok ∧ b0.n2 = n2 ∧ b0.n1 = n1 ∧
            b0.SameJ s'.base) ∧
      (s.h * M.d ≠ 0 → s'.base.cur = some (s'.h * M.d)) := by
  obtain ⟨u2, u1, ut⟩ := hu
  have hv : (M.rhs s.ec).varCount = 2 * n2 + n1 := by unfold Rhs.varCount; rw [u2, u1]
  have hx : s.x.length = 2 * n2 + n1 := h.elim (fun h => h.x) (fun h => h.2)
  by_cases hk : s.k1 = []
  · obtain ⟨f0, e1, e2⟩ := ut s.t s.x (by omega)
    obtain ⟨f, hf⟩ := shifts_total ut (dx := M.dx) (t := s.t) (x0 := s.x) (by omega)
    obtain ⟨b0, b', gb, go, g3, g4, g5, g6, g7, g8, g9⟩ := initStep_hard (b := s.base) (s.h * M.d) hdx
      (by omega : s.x.length = (M.rhs s.ec).varCount) e2 hf
    refine ⟨{ s with f0 := f0, base := b', k1 := List.replicate (M.rhs s.ec).varCount 0 }, ?_,
      ⟨g7, ?_, ?_, hx, by rw [e2, hv]⟩, rfl, rfl, rfl, rfl, fun h' => absurd hk h',
      fun _ => ⟨e1, b0, by rw [hv, u2, u1] at gb; exact gb, go, by rw [g4, u2], by rw [g5, u1], g8⟩, g9⟩
    · unfold St.initStep2
      rw [hk]
      simp only [List.isEmpty_nil, if_true]
      rw [e1, bind_ok, g6, bind_ok]
    · show b'.n2 = n2
      rw [g8.2.1, g4, u2]
    · show b'.n1 = n1
      rw [g8.2.2.1, g5, u1]
  · rcases h with h | h
    · have hne : s.k1.isEmpty = false := by
        cases hk' : s.k1 with
        | nil => exact absurd hk' hk
        | cons a l => rfl
      obtain ⟨b', g1, g2, g3, g4⟩ := updateW_ok h.ok (s.h * M.d)
      refine ⟨{ s with base := b' }, ?_, ⟨g2, by rw [g3.2.1, h.pos], by rw [g3.2.2.1, h.fst], hx, h.f0⟩, rfl, rfl, rfl,
        rfl, fun _ => ⟨g3, rfl⟩, fun h' => absurd h' hk, fun h' => g4 (Or.inl h')⟩
      unfold St.initStep2
      rw [hne]
      simp only [Bool.false_eq_true, if_false]
      rw [bind_ok]
      unfold Base.initStep
      rw [if_neg (by decide), bind_ok, g1, bind_ok]
    · exact absurd h.1 hk

/-- C40, true part: in the first attempt of a step, be it the first step after `setInitialState` or a later one,
all linear systems are solved with the Jacobian, and with the step size of the attempt.
Missing: the attempts after a rejected one, for which it is false (`C40_stale`, `C40_false`). -/
theorem C40_partial {M : Method K E} {n2 n1 : Nat} (hu : Uniform M n2 n1) (hdx : M.dx ≠ 0) (hm : 0 < n2 + n1)
    {s : St K E} (h : Live n2 n1 s ∨ (s.k1 = [] ∧ s.x.length = 2 * n2 + n1)) (hh : s.h * M.d ≠ 0) (e : E) :
    ∃ s', s.initStep2 M = .ok s' ∧ s'.h = s.h ∧ s'.t = s.t ∧ s'.x = s.x ∧
      (s'.base.Regular (s.h * M.d) → ∃ g, ({ s' with ec := e } : St K E).stages M = .ok g ∧
        StageEqs M { s' with ec := e } (s.h * M.d) g ∧
        (M.disableErrorCheck = false → ∃ b k3 k4 v, ({ s' with ec := e } : St K E).errorStages M g =
          .ok { g with base := b, err := M.norm v } ∧ ErrorEqs M { s' with ec := e } (s.h * M.d) g k3 k4 v)) := by
  obtain ⟨s', e1, e2, e3, e4, e5, -, -, -, e6⟩ := initStep2_ok (hu s.ec) hdx h
  refine ⟨s', e1, e3, e4, e5, fun hr => ?_⟩
  obtain ⟨u2, u1, ut⟩ := hu e
  have hn : s'.base.n = 2 * n2 + n1 := by rw [e2.ok.j.n, e2.pos, e2.fst]
  have hv : s'.base.n = (M.rhs e).varCount := by unfold Rhs.varCount; rw [u2, u1, hn]
  have hm' : 0 < s'.base.n2 + s'.base.n1 := by rw [e2.pos, e2.fst]; exact hm
  have hc := e6 hh
  rw [e3] at hc
  have ha : ({ s' with ec := e } : St K E).h * M.d = s.h * M.d ∨ s'.base.n2 = 0 := Or.inl (by rw [← e3])
  obtain ⟨g, g1, g2, g3, g4, g5⟩ := stages_ok (s := { s' with ec := e }) e2.ok hm' hc hr ha hv
    (by rw [hn]; exact e2.x) (by rw [hn]; exact e2.f0) ut
  refine ⟨g, g1, g5, fun hdis => ?_⟩
  obtain ⟨b, k3, k4, v, k1, -, -, -, k2⟩ := errorStages_ok hdis g2 g3 hm' g4 hr ha hv ut g5
  exact ⟨b, k3, k4, v, k1, k2⟩

theorem linSolve_cur {b b' : Base K} {x y : List K} {hd : K} (h : b.linSolve x hd = .ok (b', y)) :
    b'.cur = b.cur := by
  unfold Base.linSolve at h
  obtain ⟨_, -, h⟩ := bind_inv h
  obtain ⟨_, -, h⟩ := bind_inv h
  obtain ⟨_, -, h⟩ := bind_inv h
  obtain ⟨_, -, h⟩ := bind_inv h
  obtain ⟨_, -, h⟩ := bind_inv h
  obtain ⟨_, -, h⟩ := bind_inv h
  cases h
  rfl

theorem mult_cur {b b' : Base K} {dst x y : List K} (h : b.mult dst x = .ok (b', y)) :
    b'.cur = b.cur := by
  unfold Base.mult at h
  obtain ⟨_, -, h⟩ := bind_inv h
  obtain ⟨_, -, h⟩ := bind_inv h
  obtain ⟨_, -, h⟩ := bind_inv h
  obtain ⟨_, -, h⟩ := bind_inv h
  cases h
  rfl

theorem stages_cur {M : Method K E} {s : St K E} {g : Stages K} (h : s.stages M = .ok g) :
    g.base.cur = s.base.cur := by
  unfold St.stages at h
  obtain ⟨k1, h1, h⟩ := bind_inv h
  obtain ⟨_, -, h⟩ := bind_inv h
  obtain ⟨_, -, h⟩ := bind_inv h
  obtain ⟨Jk, h2, h⟩ := bind_inv h
  obtain ⟨_, -, h⟩ := bind_inv h
  obtain ⟨k2, h3, h⟩ := bind_inv h
  obtain ⟨_, -, h⟩ := bind_inv h
  obtain ⟨_, -, h⟩ := bind_inv h
  obtain ⟨_, -, h⟩ := bind_inv h
  cases h
  show k2.1.cur = _
  rw [linSolve_cur (b' := k2.1) (y := k2.2) h3, mult_cur (b' := Jk.1) (y := Jk.2) h2,
    linSolve_cur (b' := k1.1) (y := k1.2) h1]

theorem errorStages_cur {M : Method K E} {s : St K E} {g g' : Stages K} (h : s.errorStages M g = .ok g') :
    g'.base.cur = g.base.cur := by
  unfold St.errorStages at h
  split at h
  · cases h; rfl
  · obtain ⟨k3, h1, h⟩ := bind_inv h
    obtain ⟨_, -, h⟩ := bind_inv h
    obtain ⟨_, -, h⟩ := bind_inv h
    obtain ⟨_, -, h⟩ := bind_inv h
    obtain ⟨Jb, h2, h⟩ := bind_inv h
    obtain ⟨_, -, h⟩ := bind_inv h
    obtain ⟨k4, h3, h⟩ := bind_inv h
    obtain ⟨_, -, h⟩ := bind_inv h
    obtain ⟨_, -, h⟩ := bind_inv h
    obtain ⟨_, -, h⟩ := bind_inv h
    obtain ⟨_, -, h⟩ := bind_inv h
    obtain ⟨_, -, h⟩ := bind_inv h
    cases h
    show k4.1.cur = _
    rw [linSolve_cur (b' := k4.1) (y := k4.2) h3, mult_cur (b' := Jb.1) (y := Jb.2) h2,
      linSolve_cur (b' := k3.1) (y := k3.2) h1]

/-- What a rejected attempt leaves -/
theorem rejected_inv {M : Method K E} {s s' : St K E} (h : s.attempt M = .ok (.rejected s')) :
    s'.base.cur = s.base.cur ∧ s'.t = s.t ∧ s'.x = s.x ∧ s'.f0 = s.f0 ∧
      (M.disableErrorCheck = false) ∧
      ∃ err, (M.control s.h err 2).acceptStep = false ∧
        s'.h = if (M.control s.h err 2).changeStepSize then (M.control s.h err 2).newStepSize else s.h := by
  unfold St.attempt at h
  obtain ⟨e, -, h⟩ := bind_inv h
  obtain ⟨g, hg, h⟩ := bind_inv h
  obtain ⟨g', hg', h⟩ := bind_inv h
  dsimp only at h
  have hc : g'.base.cur = s.base.cur := (errorStages_cur hg').trans (stages_cur (s := { s with ec := e }) hg)
  obtain ⟨p, hp, h⟩ := bind_inv h
  by_cases hd : M.disableErrorCheck = true
  · rw [hd] at h hp
    simp only [if_true] at h hp
    split at h <;> cases h
  · have hd' : M.disableErrorCheck = false := by simpa using hd
    rw [hd'] at h hp
    simp only [Bool.false_eq_true, if_false] at h hp
    split at h
    · cases h
    · split at h
      · cases h
      · rename_i hacc
        rw [if_neg hacc] at hp
        cases hp
        dsimp only at h
        cases h
        refine ⟨?_, ?_, ?_, ?_, hd', g'.err, by simpa using hacc, ?_⟩ <;> dsimp only <;> split <;>
          first | exact hc | rfl

/-- C40 is false for every attempt after a rejected one: when an attempt with the right factorization is rejected and
the step size changes, the next attempt finds the factorization of the old step size. -/
theorem C40_stale {M : Method K E} {s s' : St K E} (h : s.attempt M = .ok (.rejected s'))
    (hcur : s.base.cur = some (s.h * M.d)) (hd : M.d ≠ 0) (hh : s'.h ≠ s.h) :
    s'.base.cur = some (s.h * M.d) ∧ s'.base.cur ≠ some (s'.h * M.d) := by
  have := (rejected_inv h).1
  rw [hcur] at this
  refine ⟨this, fun h' => ?_⟩
  rw [this] at h'
  exact hh (mul_right_cancel₀ hd (Option.some.inj h').symm)

/-- `x' = -x` with a controller that rejects steps of 1 and more, and halves them -/
def decay : Method ℚ Unit where
  rhs _ := ⟨0, 1, fun _ x => do
    let v ← at' x 0
    .ok [-v]⟩
  dx := 1
  d := 1
  ec := none
  disableErrorCheck := false
  hMin := 0
  norm v := |v.getD 0 0|
  control h _ _ := if 1 ≤ h then ⟨h / 2, false, true⟩ else ⟨h, true, false⟩

/-- A new solver with initial state 1 -/
def decayStart (h : ℚ) : St ℚ Unit := ⟨Base.new, 0, [1], h, [], [], (), []⟩

/-- C40 is false, seen from outside: from the same state, a step of size 1/2 gives 11/18 when it is the first
attempt, and another value when it comes after a rejected attempt. -/
theorem C40_false : ∃ s1 s2 : St ℚ Unit, (decayStart (1 / 2)).doStep2 decay 1 = some (.ok (.accepted s1)) ∧
    (decayStart 1).doStep2 decay 2 = some (.ok (.accepted s2)) ∧ s1.t = 1 / 2 ∧ s2.t = 1 / 2 ∧ s1.x ≠ s2.x := by
  have h1 : ∃ s, (decayStart (1 / 2)).doStep2 decay 1 = some (.ok (.accepted s)) ∧
      (decide (s.t = 1 / 2 ∧ s.x = [11 / 18]) : Bool) = true := by
    have : (match (decayStart (1 / 2)).doStep2 decay 1 with
      | some (.ok (.accepted s)) => decide (s.t = 1 / 2 ∧ s.x = [11 / 18]) | _ => false) = true := by decide +kernel
    split at this
    · exact ⟨_, by assumption, this⟩
    · cases this
  have h2 : ∃ s, (decayStart 1).doStep2 decay 2 = some (.ok (.accepted s)) ∧
      (decide (s.t = 1 / 2 ∧ s.x ≠ [11 / 18]) : Bool) = true := by
    have : (match (decayStart 1).doStep2 decay 2 with
      | some (.ok (.accepted s)) => decide (s.t = 1 / 2 ∧ s.x ≠ [11 / 18]) | _ => false) = true := by decide +kernel
    split at this
    · exact ⟨_, by assumption, this⟩
    · cases this
  obtain ⟨s1, a1, a2⟩ := h1
  obtain ⟨s2, b1, b2⟩ := h2
  have a3 := of_decide_eq_true a2
  have b3 := of_decide_eq_true b2
  exact ⟨s1, s2, a1, b1, a3.1, b3.1, fun h => b3.2 (h ▸ a3.2)⟩

theorem decay_uniform : Uniform decay 0 1 := by
  intro e
  refine ⟨rfl, rfl, fun t x hx => ?_⟩
  obtain ⟨v, rfl⟩ := List.length_eq_one_iff.1 (hx.trans (rfl : _ = 1))
  exact ⟨[-v], rfl, rfl⟩

/-- A system of one equation is regular if its only coefficient is nonzero. -/
theorem regular_one {b : Base K} (h2 : b.n2 = 0) (h1 : b.n1 = 1) {hd : K} (hw : b.w hd 0 0 ≠ 0) : b.Regular hd := by
  refine ⟨fun k hk => ?_, ?_⟩
  · have : k = 0 ∨ k = 1 := by omega
    rcases this with rfl | rfl
    · simp
    · rw [Matrix.det_fin_one]
      exact hw
  · rintro r c hrc ⟨r', -, hp⟩
    have := hp.2.1
    omega

/-- The hypotheses of `C40_partial` are met, and those of `C40_stale`. -/
example : ∃ s' g, (decayStart (1 / 2)).initStep2 decay = .ok s' ∧ s'.stages decay = .ok g ∧ StageEqs decay s' (1 / 2) g := by
  obtain ⟨s', h1, -, -, -, h2⟩ := C40_partial decay_uniform (s := decayStart (1 / 2)) (by decide +kernel) (by omega)
    (Or.inr ⟨rfl, rfl⟩) (by decide +kernel) ()
  obtain ⟨s1, g1, g2⟩ := Res.exists_of_test (r := (decayStart (1 / 2)).initStep2 decay)
    (p := fun s => decide (s.base.n2 = 0 ∧ s.base.n1 = 1 ∧ s.base.w (1 / 2) 0 0 ≠ 0)) (by decide +kernel)
  rw [h1] at g1
  cases g1
  obtain ⟨a1, a2, a3⟩ := of_decide_eq_true g2
  have hd : (decayStart (1 / 2)).h * decay.d = 1 / 2 := by decide +kernel
  rw [hd] at h2
  obtain ⟨g, e1, e2, -⟩ := h2 (regular_one a1 a2 a3)
  exact ⟨s', g, h1, e1, e2⟩

example : ∃ s s' : St ℚ Unit, s.attempt decay = .ok (.rejected s') ∧ s.base.cur = some (s.h * decay.d) ∧
    decay.d ≠ 0 ∧ s'.h ≠ s.h := by
  obtain ⟨s, -, g2⟩ := Res.exists_of_test (r := (decayStart 1).initStep2 decay)
    (p := fun s => decide (s.base.cur = some (s.h * decay.d)) && match s.attempt decay with
      | .ok (.rejected s') => decide (s'.h ≠ s.h) | _ => false) (by decide +kernel)
  rw [Bool.and_eq_true] at g2
  obtain ⟨h1, h2⟩ := g2
  split at h2
  · exact ⟨s, _, by assumption, of_decide_eq_true h1, by decide +kernel, of_decide_eq_true h2⟩
  · cases h2

end Verif.Ros
