import Verif.Driver.InvariantProps
import Verif.Ros.StepProps

/-!
# Linear quantities that the Rosenbrock solvers keep (C144)
-/

set_option linter.unusedSectionVars false

namespace Verif.Driver.Invariants

open Verif.Res Verif.Ros Variables

section
variable {K E : Type} [Field K] [LinearOrder K] [IsStrictOrderedRing K]

/-- The quantity with the given weights -/
def dot (n : Nat) (w : Nat → K) (x : List K) : K := ∑ i ∈ Finset.range n, w i * x.getD i 0

/-- The Jacobian in use does not change the quantity. -/
def Still (n : Nat) (w : Nat → K) (b : Base K) : Prop := ∀ c, c < n → ∑ r ∈ Finset.range n, w r * b.jac r c = 0

theorem Still.jmul {n : Nat} {w : Nat → K} {b : Base K} (hb : b.n = n) (h : Still n w b) (v : List K) :
    ∑ i ∈ Finset.range n, w i * b.jmul v i = 0 := by
  unfold Base.jmul
  rw [hb]
  simp only [Finset.mul_sum]
  rw [Finset.sum_comm]
  refine Finset.sum_eq_zero fun c hc => ?_
  have := congrArg (· * v.getD c 0) (h c (Finset.mem_range.1 hc))
  simp only [zero_mul, Finset.sum_mul] at this
  exact (Finset.sum_congr rfl fun i _ => by ring).trans this

theorem Still.same {n : Nat} {w : Nat → K} {b b' : Base K} (h : b.SameJ b') (hs : Still n w b) : Still n w b' := by
  intro c hc
  rw [← hs c hc]
  exact Finset.sum_congr rfl fun r _ => by rw [h.jac]

/-- A vector that is a combination of others in its first `n` elements -/
theorem dot_comb {n : Nat} {w : Nat → K} {x y z : List K} {a b : K}
    (h : ∀ i, i < n → x.getD i 0 = a * y.getD i 0 + b * z.getD i 0) : dot n w x = a * dot n w y + b * dot n w z := by
  unfold dot
  rw [Finset.mul_sum, Finset.mul_sum, ← Finset.sum_add_distrib]
  exact Finset.sum_congr rfl fun i hi => by rw [h i (Finset.mem_range.1 hi)]; ring

/-- The solution of `(I - hd J) k = v + a J u` -/
theorem dot_solved {n : Nat} {w : Nat → K} {b : Base K} (hb : b.n = n) (h : Still n w b) {k u v : List K} {hd a : K}
    (hk : ∀ i, i < n → k.getD i 0 - hd * b.jmul k i = v.getD i 0 - a * b.jmul u i) : dot n w k = dot n w v := by
  have h1 := h.jmul hb k
  have h2 := h.jmul hb u
  have h3 : ∑ i ∈ Finset.range n, w i * (k.getD i 0 - hd * b.jmul k i) = ∑ i ∈ Finset.range n, w i * (v.getD i 0 - a * b.jmul u i) :=
    Finset.sum_congr rfl fun i hi => by rw [hk i (Finset.mem_range.1 hi)]
  have h4 : ∀ (y z : List K) (c : K), ∑ i ∈ Finset.range n, w i * (y.getD i 0 - c * b.jmul z i) =
      dot n w y - c * ∑ i ∈ Finset.range n, w i * b.jmul z i := fun y z c => by
    unfold dot
    rw [Finset.mul_sum, ← Finset.sum_sub_distrib]
    exact Finset.sum_congr rfl fun i _ => by ring
  rw [h4, h4, h1, h2] at h3
  simpa using h3

/-- The Jacobian that the first step builds -/
def StartJac (M : Method K E) (n2 n1 : Nat) (s : St K E) (b : Base K) : Prop :=
  ∃ f0, (M.rhs s.ec).rhs s.t s.x = .ok f0 ∧ ({ s.base with n := 2 * n2 + n1, n2 := n2, n1 := n1, buf := Vec.resize s.base.buf (n2 + n1) } :
    Base K).buildJacobian ((M.rhs s.ec).rhs s.t) M.dx s.x f0 = .ok b

/-- What the theorems ask of the method: a right-hand side of `n` equations, defined for all states, that does not
change the quantity in any phase state; an event controller that does not change it either; step sizes `P` that the controller of
the step size does not leave. -/
structure Fair (M : Method K E) (n2 n1 n : Nat) (w : Nat → K) (P : K → Prop) : Prop where
  pos : 0 < n
  size : n = 2 * n2 + n1
  zero : ∀ i, i < n2 → w i = 0
  dx : M.dx ≠ 0
  uniform : Uniform M n2 n1
  rhs : ∀ e t x y, x.length = n → (M.rhs e).rhs t x = .ok y → dot n w y = 0
  ec : ∀ c, M.ec = some c → ∀ e x1 x2 t r, x1.length = n → x2.length = n → dot n w x2 = dot n w x1 →
    c.atStepEnd e x1 x2 t = .ok r → r.2.1.length = n ∧ dot n w r.2.1 = dot n w x1
  steps : ∀ h err, P h → (M.control h err 2).changeStepSize = true → P (M.control h err 2).newStepSize
  nonzero : ∀ h, P h → h * M.d ≠ 0

variable {M : Method K E} {n2 n1 n : Nat} {w : Nat → K} {P : K → Prop}

theorem Fair.varCount (hM : Fair M n2 n1 n w P) (e : E) : (M.rhs e).varCount = n := by
  unfold Implicit.Rhs.varCount
  rw [(hM.uniform e).1, (hM.uniform e).2.1, hM.size]

theorem still_start (hM : Fair M n2 n1 n w P) {s : St K E} (hx : s.x.length = n) {b : Base K} (h : StartJac M n2 n1 s b) : Still n w b := by
  obtain ⟨f0, h1, h2⟩ := h
  obtain ⟨u2, u1, ut⟩ := hM.uniform s.ec
  have hv := hM.varCount s.ec
  obtain ⟨f, hf⟩ := shifts_total ut (dx := M.dx) (t := s.t) (x0 := s.x) (by omega)
  have hl0 : f0.length = n := by
    obtain ⟨y, y1, y2⟩ := ut s.t s.x (by omega)
    rw [h1] at y1
    cases y1
    omega
  have d0 := hM.rhs _ _ _ _ hx h1
  have hsz := hM.size
  obtain ⟨b', k1, k2⟩ := C38_partial (b := { s.base with n := 2 * n2 + n1, n2 := n2, n1 := n1, buf := Vec.resize s.base.buf (n2 + n1) })
    (rhs := (M.rhs s.ec).rhs s.t) hM.dx (x0 := s.x) (f0 := f0) rfl (by simp [Vec.resize]) (by rw [hx, hsz]) (by rw [hl0, hsz])
    (f := f) (by rw [hv, hsz] at hf; exact hf)
  rw [h2] at k1
  cases k1
  intro c hc
  have dc : dot n w (f c) = 0 := by
    have := hf c (by omega)
    exact hM.rhs _ _ _ _ (by simpa using hx) this.1
  have : ∀ r ∈ Finset.range n, w r * b.jac r c =
      if c < n2 + n1 then (w r * (f c).getD r 0 - w r * f0.getD r 0) / M.dx else 0 := fun r hr => by
    have hr := Finset.mem_range.1 hr
    by_cases h2 : r < n2
    · rw [hM.zero r h2]
      simp
    · obtain ⟨r, rfl⟩ : ∃ q, r = n2 + q := ⟨r - n2, by omega⟩
      obtain ⟨g1, g2, g3⟩ := k2 r (by dsimp only; omega)
      dsimp only at g1 g2 g3
      by_cases c2 : c < n2
      · rw [g1 c c2, if_pos (by omega)]
        ring
      · obtain ⟨c, rfl⟩ : ∃ q, c = n2 + q := ⟨c - n2, by omega⟩
        by_cases c1 : c < n1
        · rw [g2 c c1, if_pos (by omega)]
          ring
        · rw [g3 c (by omega), if_neg (by omega), mul_zero]
  rw [Finset.sum_congr rfl this]
  split
  · rw [← Finset.sum_div, Finset.sum_sub_distrib]
    unfold dot at dc d0
    rw [dc, d0]
    simp
  · simp

/-- Between steps -/
structure Kept (M : Method K E) (n2 n1 n : Nat) (w : Nat → K) (P : K → Prop) (c : K) (s : St K E) : Prop where
  x : s.x.length = n
  value : dot n w s.x = c
  step : P s.h
  jac : (s.k1 = [] ∧ ∀ b, StartJac M n2 n1 s b → ∀ h, P h → b.Regular (h * M.d)) ∨
    (s.k1 ≠ [] ∧ Live n2 n1 s ∧ Still n w s.base ∧ ∀ h, P h → s.base.Regular (h * M.d))

/-- Within a step -/
structure Good (M : Method K E) (n2 n1 n : Nat) (w : Nat → K) (P : K → Prop) (c : K) (s : St K E) : Prop where
  live : Live n2 n1 s
  value : dot n w s.x = c
  step : P s.h
  still : Still n w s.base
  regular : ∀ h, P h → s.base.Regular (h * M.d)
  f0 : dot n w s.f0 = 0
  cur : ∃ h, P h ∧ s.base.cur = some (h * M.d)

theorem init_good (hM : Fair M n2 n1 n w P) {c : K} {s : St K E} (hs : Kept M n2 n1 n w P c s) (hf : s.k1 ≠ [] → dot n w s.f0 = 0) :
    ∃ s', s.initStep2 M = .ok s' ∧ Good M n2 n1 n w P c s' ∧ s'.h = s.h ∧ s'.base.cur = some (s'.h * M.d) ∧ s'.x = s.x := by
  have hh : Live n2 n1 s ∨ (s.k1 = [] ∧ s.x.length = 2 * n2 + n1) := by
    rcases hs.jac with h | h
    · exact .inr ⟨h.1, by rw [hs.x, hM.size]⟩
    · exact .inl h.2.1
  obtain ⟨s', e1, e2, e3, e4, e5, e6, e7, e8, e9⟩ := initStep2_ok (hM.uniform s.ec) hM.dx hh
  have hc := e9 (hM.nonzero _ hs.step)
  refine ⟨s', e1, ?_, e3, hc, e5⟩
  rcases hs.jac with ⟨h1, h2⟩ | ⟨h1, h2, h3, h4⟩
  · obtain ⟨g1, b0, g2, g3, g4, g5, g6⟩ := e8 h1
    have hj : StartJac M n2 n1 s b0 := ⟨_, g1, g2⟩
    exact ⟨e2, by rw [e5, hs.value], by rw [e3]; exact hs.step, (still_start hM hs.x hj).same g6,
      fun h hp => g6.regular (h2 b0 hj h hp), hM.rhs _ _ _ _ hs.x g1, s'.h, by rw [e3]; exact hs.step, hc⟩
  · obtain ⟨g1, g2⟩ := e7 h1
    exact ⟨e2, by rw [e5, hs.value], by rw [e3]; exact hs.step, h3.same g1, fun h hp => g1.regular (h4 h hp), by rw [g2]; exact hf h1,
      s'.h, by rw [e3]; exact hs.step, hc⟩

theorem initStep1_eq {s : St K E} {f0 : List K} (h : (M.rhs s.ec).rhs s.t s.x = .ok f0) :
    s.initStep1 M = ({ s with f0 := f0 } : St K E).initStep2 M := by
  unfold St.initStep1 St.initStep2
  by_cases hk : s.k1.isEmpty = true
  · simp only [h, hk, if_true, bind_ok]
  · simp only [h, hk, bind_ok]
    rfl

theorem finish_kept (hM : Fair M n2 n1 n w P) {e : E} {x1 x2 : List K} {t : K} {q : E × List K × K × RK.Trunc} (h1 : x1.length = n)
    (h2 : x2.length = n) (hd : dot n w x2 = dot n w x1) (h : M.finish e x1 x2 t = .ok q) :
    q.2.1.length = n ∧ dot n w q.2.1 = dot n w x1 := by
  unfold Method.finish at h
  rcases hc : M.ec with _ | c <;> rw [hc] at h
  · cases h
    exact ⟨h2, hd⟩
  · exact hM.ec c hc _ _ _ _ _ h1 h2 hd h

theorem base_n (hM : Fair M n2 n1 n w P) {s : St K E} (h : Live n2 n1 s) : s.base.n = n := by
  rw [h.ok.j.n, h.pos, h.fst, hM.size]

theorem w1_kept (hM : Fair M n2 n1 n w P) {c : K} {s s' : St K E} (hs : Kept M n2 n1 n w P c s) (h : s.doStep1 M = .ok s') :
    Kept M n2 n1 n w P c s' := by
  unfold St.doStep1 at h
  have hsz := hM.size
  have hpos := hM.pos
  obtain ⟨s1, h1, h⟩ := bind_inv h
  obtain ⟨f0, f1, f2⟩ := (hM.uniform s.ec).2.2 s.t s.x (by rw [hM.varCount, hs.x])
  rw [initStep1_eq (s := { s with log := .pre (some s.h) :: s.log }) f1] at h1
  have hs' : Kept M n2 n1 n w P c ({ s with log := .pre (some s.h) :: s.log, f0 := f0 } : St K E) := by
    refine ⟨hs.x, hs.value, hs.step, ?_⟩
    rcases hs.jac with h' | ⟨g1, g2, g3, g4⟩
    · exact .inl h'
    · exact .inr ⟨g1, ⟨g2.ok, g2.pos, g2.fst, g2.x, by rw [f2, hM.varCount]; omega⟩, g3, g4⟩
  obtain ⟨s1', i1, i2, i3, i4, i5⟩ := init_good hM hs' (fun _ => hM.rhs _ _ _ _ hs.x f1)
  rw [h1] at i1
  cases i1
  obtain ⟨e, -, h⟩ := bind_inv h
  have hn := base_n hM i2.live
  obtain ⟨b', k, q1, qb, qj, -, q2, q3⟩ := solve_ok i2.live.ok (by rw [i2.live.pos, i2.live.fst]; have := hM.pos; omega) i4
    (i2.regular _ i2.step) (x := s1.f0) (by rw [hn, i2.live.f0]; omega)
  rw [q1, bind_ok] at h
  have lx : s1.x.length = n := by rw [i2.live.x]; omega
  obtain ⟨z, p1, p2, p3⟩ := plus_ok (x := s1.x) (v := k) (c := s1.h) (by rw [lx, q2, hn])
  rw [p1, bind_ok] at h
  obtain ⟨q, hq, h⟩ := bind_inv h
  have hk : dot n w k = 0 := by
    rw [dot_solved (u := []) (a := 0) hn i2.still (fun i hi => by simpa [Base.jmul, hn] using q3 i (by rw [hn]; exact hi)), i2.f0]
  have hz : dot n w z = dot n w s1.x := by
    rw [dot_comb (a := 1) (b := s1.h) (y := s1.x) (z := k) (fun i hi => by rw [p3 i (by rw [lx]; exact hi)]; ring), hk]
    ring
  obtain ⟨r1, r2⟩ := finish_kept hM lx (by rw [p2, lx]) hz hq
  simp only [Except.ok.injEq] at h
  subst h
  refine ⟨r1, by rw [← i2.value]; exact r2, i2.step, .inr ⟨?_, ⟨qb, ?_, ?_, ?_, i2.live.f0⟩, i2.still.same qj,
    fun h hp => qj.regular (i2.regular h hp)⟩⟩
  · intro h'
    have h' : k = [] := h'
    rw [h', hn] at q2
    have := hM.pos
    simp at q2
    omega
  · show b'.n2 = n2
    rw [qj.2.1, i2.live.pos]
  · show b'.n1 = n1
    rw [qj.2.2.1, i2.live.fst]
  · show q.2.1.length = _
    rw [r1]
    omega

theorem note_value {n : Nat} {w : Nat → K} {c t : K} {x : List K} {log : List (RK.Obs K)} (hx : dot n w x = c) :
    ∀ m ∈ noteOf t x log, dot n w m.state = c := by
  intro m hm
  unfold noteOf at hm
  split at hm
  · rw [List.mem_singleton.1 hm]
    exact hx
  · cases hm

/-- C144: a linear quantity that the right-hand side does not change has the same value in all reports of a run of the solver W1 and
at its end, although the Jacobian is an approximation made once, if systems with it can be solved. With variables of second order
the weights of positions must be zero (momentum): their Jacobian lacks columns (C38). -/
theorem C144_w1 (hM : Fair M n2 n1 n w P) (s : St K E) (hk : s.k1 = []) (hx : s.x.length = n) (hp : P s.h)
    (hr : ∀ b, StartJac M n2 n1 s b → ∀ h, P h → b.Regular (h * M.d)) (o : Outputs) (d : K) (fuel : Nat) (evs : List (Ev K (List K)))
    (r : Res (St K E)) (h : solveOde (w1 M) o d fuel s = some (evs, r)) :
    (∀ m, Ev.note m ∈ evs → dot n w m.state = dot n w s.x) ∧ ∀ s', r = .ok s' → dot n w s'.x = dot n w s.x := by
  have key : ∀ s1, Kept M n2 n1 n w P (dot n w s.x) s1 → (∀ m ∈ ((w1 M).doStep s1).1, dot n w m.state = dot n w s.x) ∧
      ∀ s', ((w1 M).doStep s1).2 = .ok s' → Kept M n2 n1 n w P (dot n w s.x) s' := by
    intro s1 h1
    simp only [w1]
    rcases h2 : s1.doStep1 M with f | a
    · exact ⟨fun n hn => (by cases hn), fun s' hs' => by cases hs'⟩
    · have h3 := w1_kept hM h1 h2
      exact ⟨note_value h3.value, fun s' hs' => by cases hs'; exact h3⟩
  obtain ⟨k1, k2⟩ := solve_kept (w1 M) (Kept M n2 n1 n w P (dot n w s.x)) (fun m => dot n w m.state = dot n w s.x) key o d fuel s
    ⟨hx, rfl, hp, .inl ⟨hk, hr⟩⟩ evs r h
  exact ⟨k1, fun s' h' => (k2 s' h').value⟩

/-! ### SW2(4) -/

theorem attempt_good (hM : Fair M n2 n1 n w P) {c : K} {s : St K E} (hs : Good M n2 n1 n w P c s)
    (hcur : s.base.cur = some (s.h * M.d) ∨ n2 = 0) {A : RK.Attempt (St K E)} (h : s.attempt M = .ok A) : Good M n2 n1 n w P c A.state ∧ A.state.k1 ≠ [] := by
  unfold St.attempt at h
  obtain ⟨e, -, h⟩ := bind_inv h
  obtain ⟨u2, u1, ut⟩ := hM.uniform e
  have hn := base_n hM hs.live
  have hv := hM.varCount e
  have hsz := hM.size
  have lx : s.x.length = n := by rw [hs.live.x]; omega
  have lf : s.f0.length = n := by rw [hs.live.f0]; omega
  obtain ⟨h0, hp0, hc0⟩ := hs.cur
  have hm : 0 < s.base.n2 + s.base.n1 := by rw [hs.live.pos, hs.live.fst]; have := hM.pos; omega
  have hd : s.h * M.d = h0 * M.d ∨ s.base.n2 = 0 := by
    rcases hcur with h' | h'
    · rw [hc0, Option.some.injEq] at h'
      exact .inl h'.symm
    · exact .inr (hs.live.pos.trans h')
  obtain ⟨g, g1, g2, g3, g4, g5⟩ := stages_ok (M := M) (s := { s with ec := e }) hs.live.ok hm hc0 (hs.regular h0 hp0) hd
    (by rw [hv]; exact hn) (by rw [lx]; exact hn.symm) (by rw [lf]; exact hn.symm) ut
  obtain ⟨gn, k1, k2, k3, k4, k5, k6, k7⟩ : ∃ g', ({ s with ec := e } : St K E).errorStages M g = .ok g' ∧ g'.base.Ok ∧
      s.base.SameJ g'.base ∧ g'.base.cur = some (h0 * M.d) ∧ g'.next = g.next ∧ g'.k1 = g.k1 ∧ g'.nextRhs = g.nextRhs := by
    cases hdis : M.disableErrorCheck with
    | true =>
      refine ⟨g, ?_, g2, g3, g4, rfl, rfl, rfl⟩
      unfold St.errorStages
      rw [if_pos hdis]
    | false =>
      obtain ⟨b, q3, q4, v, q1, qb, qj, qc, -⟩ := errorStages_ok hdis g2 g3 hm g4 (hs.regular h0 hp0) hd (by rw [hv]; exact hn) ut g5
      exact ⟨_, q1, qb, qj, qc, rfl, rfl, rfl⟩
  have hbn : (({ s with ec := e } : St K E).base).n = n := hn
  have d1 : dot n w g.k1 = 0 := by
    rw [dot_solved (u := []) (a := 0) hn hs.still (fun i hi => by simpa using g5.k1 i (by rw [hbn]; exact hi)), ← hs.f0]
  have d2 : dot n w g.k2 = 0 := by
    obtain ⟨x', f, w1, -, w3, -, w5⟩ := g5.k2
    rw [dot_solved hn hs.still (fun i hi => w5 i (by rw [hbn]; exact hi))]
    exact hM.rhs _ _ _ _ (by rw [w1, hbn]) w3
  have dn : dot n w g.next = dot n w s.x := by
    rw [dot_comb (x := g.next) (a := 1) (b := s.h) (y := s.x) (z := (List.range n).map fun i => 1 / 4 * g.k1.getD i 0 + 3 / 4 * g.k2.getD i 0)
      (fun i hi => by rw [g5.next i (by rw [hbn]; exact hi)]; simp [hi])]
    rw [dot_comb (x := (List.range n).map fun i => 1 / 4 * g.k1.getD i 0 + 3 / 4 * g.k2.getD i 0) (a := 1 / 4) (b := 3 / 4) (y := g.k1)
      (z := g.k2) (fun i hi => by simp [hi]), d1, d2]
    ring
  have ln : g.next.length = n := by rw [g5.lenNext, hbn]
  have dr : dot n w g.nextRhs = 0 := hM.rhs _ _ _ _ ln g5.nextRhs
  have hk1 : g.k1 ≠ [] := fun h' => by
    have := g5.len1
    rw [h', hbn] at this
    have := hM.pos
    simp at *
    omega
  simp only at h
  rw [g1, bind_ok, k1, bind_ok] at h
  obtain ⟨⟨s2, tr⟩, hs2, h⟩ := bind_inv h
  have hres : ∀ res : RK.CtlResult K, (if M.disableErrorCheck = true then (⟨s.h, true, false⟩ : RK.CtlResult K) else M.control s.h gn.err 2) =
      res → res.changeStepSize = true → P res.newStepSize := by
    rintro res rfl
    split
    · intro h'
      cases h'
    · exact hM.steps _ _ hs.step
  generalize hr : (if M.disableErrorCheck = true then (⟨s.h, true, false⟩ : RK.CtlResult K) else M.control s.h gn.err 2) = res at hs2 h
  have hres := hres res hr
  have hgood : Good M n2 n1 n w P c s2 ∧ s2.k1 ≠ [] := by
    split at hs2
    · obtain ⟨q, hq, hs2⟩ := bind_inv hs2
      obtain ⟨f0, hf0, hs2⟩ := bind_inv hs2
      obtain ⟨r1, r2⟩ := finish_kept hM lx (by rw [k5, ln]) (by rw [k5, dn]) hq
      simp only [Except.ok.injEq, Prod.mk.injEq] at hs2
      rw [← hs2.1]
      have hf : f0.length = n ∧ dot n w f0 = 0 := by
        split at hf0
        · obtain ⟨y, y1, y2⟩ := (hM.uniform q.1).2.2 q.2.2.1 q.2.1 (by rw [hM.varCount, r1])
          rw [y1] at hf0
          cases hf0
          exact ⟨by rw [y2, hM.varCount], hM.rhs _ _ _ _ r1 y1⟩
        · cases hf0
          rw [k7]
          exact ⟨by rw [g5.lenRhs, hbn], dr⟩
      exact ⟨⟨⟨k2, k3.2.1.trans hs.live.pos, k3.2.2.1.trans hs.live.fst, by show q.2.1.length = _; omega, by show f0.length = _; omega⟩,
        r2.trans hs.value, hs.step, hs.still.same k3, fun h hp => k3.regular (hs.regular h hp), hf.2, h0, hp0, k4⟩, by show gn.k1 ≠ []; rw [k6]; exact hk1⟩
    · simp only [Except.ok.injEq, Prod.mk.injEq] at hs2
      rw [← hs2.1]
      exact ⟨⟨⟨k2, k3.2.1.trans hs.live.pos, k3.2.2.1.trans hs.live.fst, hs.live.x, hs.live.f0⟩,
        hs.value, hs.step, hs.still.same k3, fun h hp => k3.regular (hs.regular h hp), hs.f0, h0, hp0, k4⟩, by show gn.k1 ≠ []; rw [k6]; exact hk1⟩
  have hg3 : Good M n2 n1 n w P c (if res.changeStepSize = true then { s2 with h := res.newStepSize } else s2) ∧
      (if res.changeStepSize = true then { s2 with h := res.newStepSize } else s2).k1 ≠ [] := by
    split
    · rename_i hch
      obtain ⟨⟨a1, a2, a3, a4, a5, a6, a7⟩, a8⟩ := hgood
      exact ⟨⟨⟨a1.ok, a1.pos, a1.fst, a1.x, a1.f0⟩, a2, hres hch, a4, a5, a6, a7⟩, a8⟩
    · exact hgood
  generalize (if res.changeStepSize = true then { s2 with h := res.newStepSize } else s2) = s3 at h hg3
  have hlog : ∀ l, Good M n2 n1 n w P c { s3 with log := l } ∧ ({ s3 with log := l } : St K E).k1 ≠ [] := by
    intro l
    obtain ⟨⟨a1, a2, a3, a4, a5, a6, a7⟩, a8⟩ := hg3
    exact ⟨⟨⟨a1.ok, a1.pos, a1.fst, a1.x, a1.f0⟩, a2, a3, a4, a5, a6, a7⟩, a8⟩
  split at h
  · cases h
    exact hg3
  · split at h <;> cases h <;> exact hlog _

/-- Between steps of SW2(4) -/
def Kept2 (M : Method K E) (n2 n1 n : Nat) (w : Nat → K) (P : K → Prop) (c : K) (s : St K E) : Prop :=
  Kept M n2 n1 n w P c s ∧ (s.k1 ≠ [] → dot n w s.f0 = 0)

theorem Good.kept (hM : Fair M n2 n1 n w P) {c : K} {s : St K E} (h : Good M n2 n1 n w P c s) (hk : s.k1 ≠ []) : Kept2 M n2 n1 n w P c s :=
  ⟨⟨by rw [h.live.x, hM.size], h.value, h.step, .inr ⟨hk, h.live, h.still, h.regular⟩⟩, fun _ => h.f0⟩

/-- No attempt is rejected. -/
def Accepts (M : Method K E) : Prop := M.disableErrorCheck = true ∨ ∀ h err, (M.control h err 2).acceptStep = true

theorem accepts (hA : Accepts M) {s s' : St K E} (h : s.attempt M = .ok (.rejected s')) : False := by
  unfold St.attempt at h
  obtain ⟨e, -, h⟩ := bind_inv h
  obtain ⟨g, -, h⟩ := bind_inv h
  obtain ⟨gn, -, h⟩ := bind_inv h
  simp only at h
  have hres : (if M.disableErrorCheck = true then (⟨s.h, true, false⟩ : RK.CtlResult K) else M.control s.h gn.err 2).acceptStep = true := by
    split
    · rfl
    · rename_i hd
      exact hA.elim (fun h' => absurd h' hd) (fun h' => h' _ _)
  generalize (if M.disableErrorCheck = true then (⟨s.h, true, false⟩ : RK.CtlResult K) else M.control s.h gn.err 2) = res at h hres
  obtain ⟨q, -, h⟩ := bind_inv h
  rw [if_pos hres] at h
  split at h <;> cases h

theorem sw24_kept (hM : Fair M n2 n1 n w P) (hA : n2 = 0 ∨ Accepts M) {c : K} (fuel : Nat) (first : Bool) (s : St K E)
    (hs : if first then Kept2 M n2 n1 n w P c s else Good M n2 n1 n w P c s ∧ n2 = 0) :
    (∀ m ∈ (sw24Passes M fuel first s).1, dot n w m.state = c) ∧ ∀ s', (sw24Passes M fuel first s).2 = .ok s' → Kept2 M n2 n1 n w P c s' := by
  induction fuel generalizing first s with
  | zero => exact ⟨fun n hn => (by cases hn), fun s' hs' => by cases hs'⟩
  | succ fuel ih =>
    unfold sw24Passes
    simp only
    have hlog : ∃ s1, (if first = true then St.initStep2 M { s with log := .pre (some s.h) :: s.log } else
        .ok { s with log := .pre (some s.h) :: s.log } : Res (St K E)) = .ok s1 ∧ Good M n2 n1 n w P c s1 ∧ (s1.base.cur = some (s1.h * M.d) ∨ n2 = 0) := by
      cases first with
      | true =>
        obtain ⟨⟨a1, a2, a3, a4⟩, a5⟩ : Kept2 M n2 n1 n w P c s := hs
        have : Kept M n2 n1 n w P c { s with log := .pre (some s.h) :: s.log } := by
          refine ⟨a1, a2, a3, ?_⟩
          rcases a4 with a4 | ⟨b1, b2, b3, b4⟩
          · exact .inl a4
          · exact .inr ⟨b1, ⟨b2.ok, b2.pos, b2.fst, b2.x, b2.f0⟩, b3, b4⟩
        obtain ⟨s1, i1, i2, -, i4, -⟩ := init_good hM this a5
        exact ⟨s1, i1, i2, .inl i4⟩
      | false =>
        obtain ⟨⟨a1, a2, a3, a4, a5, a6, a7⟩, a8⟩ : Good M n2 n1 n w P c s ∧ n2 = 0 := hs
        exact ⟨_, rfl, ⟨⟨a1.ok, a1.pos, a1.fst, a1.x, a1.f0⟩, a2, a3, a4, a5, a6, a7⟩, .inr a8⟩
    obtain ⟨s1, e1, e2, e3⟩ := hlog
    rw [e1]
    simp only
    rcases h1 : s1.attempt M with f | A
    · exact ⟨fun n hn => (by cases hn), fun s' hs' => by cases hs'⟩
    · obtain ⟨hg, hk⟩ := attempt_good hM e2 e3 h1
      rcases A with a | a | ⟨msg, a⟩
      · exact ⟨note_value hg.value, fun s' hs' => by cases hs'; exact hg.kept hM hk⟩
      · obtain ⟨k1, k2⟩ := ih false a ⟨hg, hA.elim id fun h' => (accepts h' h1).elim⟩
        refine ⟨fun m hm => ?_, k2⟩
        rcases List.mem_append.1 hm with h' | h'
        · exact note_value hg.value m h'
        · exact k1 m h'
      · exact ⟨fun n hn => (by cases hn), fun s' hs' => by cases hs'⟩

/-- C144: and of the solver SW2(4), with its step size control and in spite of the factorization that it keeps using after a rejected
attempt (C40). With variables of second order it must not reject attempts. -/
theorem C144_sw24 (hM : Fair M n2 n1 n w P) (hA : n2 = 0 ∨ Accepts M) (s : St K E) (hk : s.k1 = []) (hx : s.x.length = n) (hp : P s.h)
    (hr : ∀ b, StartJac M n2 n1 s b → ∀ h, P h → b.Regular (h * M.d)) (o : Outputs) (d : K) (p fuel : Nat) (evs : List (Ev K (List K)))
    (r : Res (St K E)) (h : solveOde (sw24 M p) o d fuel s = some (evs, r)) :
    (∀ m, Ev.note m ∈ evs → dot n w m.state = dot n w s.x) ∧ ∀ s', r = .ok s' → dot n w s'.x = dot n w s.x := by
  obtain ⟨k1, k2⟩ := solve_kept (sw24 M p) (Kept2 M n2 n1 n w P (dot n w s.x)) (fun m => dot n w m.state = dot n w s.x)
    (fun s1 h1 => sw24_kept hM hA p true s1 h1) o d fuel s ⟨⟨hx, rfl, hp, .inl ⟨hk, hr⟩⟩, fun h' => absurd hk h'⟩ evs r h
  exact ⟨k1, fun s' h' => (k2 s' h').1.value⟩

end

/-! ### Examples -/

/-- A reaction of one substance to another: `x' = -x²`, `y' = x²`. The controller rejects steps of 1 and more, and halves them. -/
def reaction : Method ℚ Unit where
  rhs _ := ⟨0, 2, fun _ x => do
    let v ← at' x 0
    .ok [-(v * v), v * v]⟩
  dx := 1
  d := 1
  ec := none
  disableErrorCheck := false
  hMin := 0
  norm v := |v.getD 0 0|
  control h _ _ := if 1 ≤ h then ⟨h / 2, false, true⟩ else ⟨h, true, false⟩

/-- A new solver; only the first substance is there. -/
def reactionStart (h : ℚ) : St ℚ Unit := ⟨Base.new, 0, [1, 0], h, [], [], (), []⟩

theorem reaction_fair : Fair reaction 0 2 2 (fun _ => 1) (fun h => 0 < h) where
  pos := by omega
  size := rfl
  zero i hi := absurd hi (Nat.not_lt_zero _)
  dx := by decide +kernel
  uniform := by
    intro e
    refine ⟨rfl, rfl, fun t x hx => ?_⟩
    obtain ⟨u, v, rfl⟩ := List.length_eq_two.1 (hx.trans (rfl : _ = 2))
    exact ⟨[-(u * u), u * u], rfl, rfl⟩
  rhs := by
    intro e t x y hx h
    obtain ⟨u, v, rfl⟩ := List.length_eq_two.1 hx
    have h' : (.ok [-(u * u), u * u] : Res (List ℚ)) = .ok y := h
    cases h'
    simp [dot, Finset.sum_range_succ]
  ec := by
    intro c hc
    cases hc
  steps := by
    intro h err hp hch
    simp only [reaction] at hch ⊢
    split
    · show 0 < h / 2
      linarith
    · exact hp
  nonzero := by
    intro h hp
    simp only [reaction, mul_one]
    exact ne_of_gt hp

theorem reaction_regular (h0 : ℚ) : ∀ b, StartJac reaction 0 2 (reactionStart h0) b → ∀ h : ℚ, 0 < h → b.Regular (h * reaction.d) := by
  rintro b ⟨f0, h1, h2⟩ h hp
  have h1' : (.ok [-(1 * 1), 1 * 1] : Res (List ℚ)) = .ok f0 := h1
  cases h1'
  obtain ⟨b', g1, g2⟩ := Res.exists_of_test
    (r := ({ (Base.new : Base ℚ) with n := 2 * 0 + 2, n2 := 0, n1 := 2, buf := Vec.resize [] (0 + 2) } : Base ℚ).buildJacobian
      ((reaction.rhs ()).rhs 0) reaction.dx [1, 0] [-(1 * 1), 1 * 1])
    (p := fun b => decide (b.n2 = 0 ∧ b.n1 = 2 ∧ b.J1.data = [((0, 0), -3), ((1, 0), 3)] ∧ b.J2.data = [])) (by decide +kernel)
  have h2' : ({ (Base.new : Base ℚ) with n := 2 * 0 + 2, n2 := 0, n1 := 2, buf := Vec.resize [] (0 + 2) } : Base ℚ).buildJacobian
      ((reaction.rhs ()).rhs 0) reaction.dx [1, 0] [-(1 * 1), 1 * 1] = .ok b := h2
  rw [g1] at h2'
  cases h2'
  obtain ⟨a1, a2, a3, a4⟩ := of_decide_eq_true g2
  have e1 : reaction.d = 1 := rfl
  rw [e1, mul_one]
  have w00 : b.w h 0 0 = 1 + 3 * h := by
    simp [Base.w, a3, a4, Sparse.Data.get, Sparse.Data.find]
    ring
  have w01 : b.w h 0 1 = 0 := by
    simp [Base.w, a3, a4, Sparse.Data.get, Sparse.Data.find]
  have w11 : b.w h 1 1 = 1 := by
    simp [Base.w, a3, a4, Sparse.Data.get, Sparse.Data.find]
  refine ⟨fun k hk => ?_, ?_⟩
  · have : k = 0 ∨ k = 1 ∨ k = 2 := by omega
    rcases this with rfl | rfl | rfl
    · simp
    · rw [Matrix.det_fin_one]
      show b.w h 0 0 ≠ 0
      rw [w00]
      positivity
    · rw [Matrix.det_fin_two]
      show b.w h 0 0 * b.w h 1 1 - b.w h 0 1 * b.w h 1 0 ≠ 0
      rw [w00, w01, w11]
      simp only [mul_one, zero_mul, sub_zero]
      positivity
  · rintro r c hrc ⟨r', hr', hp1, hp2, hp3⟩
    have hc : c = 1 := by omega
    have hr : r' = 0 := by omega
    subst hc hr
    exfalso
    rcases hp3 with hp3 | hp3 | hp3
    · omega
    · rw [a3] at hp3
      exact absurd hp3 (by decide +kernel)
    · rw [a4] at hp3
      exact absurd hp3 (by decide +kernel)

/-- The amount of substance is kept by all runs of W1 and SW2(4). -/
example (o : Outputs) (d : ℚ) (p fuel : Nat) (evs : List (Ev ℚ (List ℚ))) (s' : St ℚ Unit)
    (h : solveOde (sw24 reaction p) o d fuel (reactionStart 1) = some (evs, .ok s') ∨
      solveOde (w1 reaction) o d fuel (reactionStart 1) = some (evs, .ok s')) : dot 2 (fun _ => 1) s'.x = 1 := by
  have e : dot 2 (fun _ => (1 : ℚ)) (reactionStart 1).x = 1 := by decide +kernel
  refine Eq.trans ?_ e
  rcases h with h | h
  · exact (C144_sw24 reaction_fair (.inl rfl) (reactionStart 1) rfl rfl (by decide +kernel) (reaction_regular 1) o d p fuel evs _ h).2 s' rfl
  · exact (C144_w1 reaction_fair (reactionStart 1) rfl rfl (by decide +kernel) (reaction_regular 1) o d fuel evs _ h).2 s' rfl

/-- Such runs exist, and do something: the first step of SW2(4) is rejected. -/
example : (match solveOde (sw24 reaction 5) ⟨none, none, none⟩ 1 5 (reactionStart 1) with
    | some (evs, .ok s') => decide (evs.length = 3 ∧ s'.t = 1 ∧ s'.x.getD 0 0 ≠ 1 ∧ dot 2 (fun _ => 1) s'.x = 1)
    | _ => false) = true := by decide +kernel

/-- Two bodies of mass 1 and a spring -/
def bodies : Method ℚ Unit where
  rhs _ := ⟨2, 0, fun _ x => do
    let p ← at' x 0
    let q ← at' x 1
    let u ← at' x 2
    let v ← at' x 3
    .ok [u, v, q - p, p - q]⟩
  dx := 1
  d := 1
  ec := none
  disableErrorCheck := true
  hMin := 0
  norm v := |v.getD 0 0|
  control h _ _ := ⟨h, true, false⟩

/-- The weights of the momentum -/
def momentum : Nat → ℚ := fun i => if i < 2 then 0 else 1

/-- A new solver; the bodies are apart, and one of them moves. -/
def bodiesStart : St ℚ Unit := ⟨Base.new, 0, [0, 1, 1, 0], 1, [], [], (), []⟩

theorem bodies_fair : Fair bodies 2 0 4 momentum (fun h => 0 < h) where
  pos := by omega
  size := rfl
  zero i hi := if_pos hi
  dx := by decide +kernel
  uniform := by
    intro e
    refine ⟨rfl, rfl, fun t x hx => ?_⟩
    match x, hx with
    | [p, q, u, v], _ => exact ⟨[u, v, q - p, p - q], rfl, rfl⟩
  rhs := by
    intro e t x y hx h
    match x, hx with
    | [p, q, u, v], _ =>
      have h' : (.ok [u, v, q - p, p - q] : Res (List ℚ)) = .ok y := h
      cases h'
      simp [dot, momentum, Finset.sum_range_succ]
  ec := by
    intro c hc
    cases hc
  steps := fun h err hp hch => by cases hch
  nonzero := by
    intro h hp
    simp only [bodies, mul_one]
    exact ne_of_gt hp

theorem bodies_regular : ∀ b, StartJac bodies 2 0 bodiesStart b → ∀ h : ℚ, 0 < h → b.Regular (h * bodies.d) := by
  rintro b ⟨f0, h1, h2⟩ h hp
  have h1' : (.ok [1, 0, 1 - 0, 0 - 1] : Res (List ℚ)) = .ok f0 := h1
  cases h1'
  obtain ⟨b', g1, g2⟩ := Res.exists_of_test
    (r := ({ (Base.new : Base ℚ) with n := 2 * 2 + 0, n2 := 2, n1 := 0, buf := Vec.resize [] (2 + 0) } : Base ℚ).buildJacobian
      ((bodies.rhs ()).rhs 0) bodies.dx [0, 1, 1, 0] [1, 0, 1 - 0, 0 - 1])
    (p := fun b => decide (b.n2 = 2 ∧ b.n1 = 0 ∧ b.J1.data = [] ∧
      b.J2.data = [((0, 0), -1), ((0, 1), 1), ((1, 0), 1), ((1, 1), -1)])) (by decide +kernel)
  have h2' : ({ (Base.new : Base ℚ) with n := 2 * 2 + 0, n2 := 2, n1 := 0, buf := Vec.resize [] (2 + 0) } : Base ℚ).buildJacobian
      ((bodies.rhs ()).rhs 0) bodies.dx [0, 1, 1, 0] [1, 0, 1 - 0, 0 - 1] = .ok b := h2
  rw [g1] at h2'
  cases h2'
  obtain ⟨a1, a2, a3, a4⟩ := of_decide_eq_true g2
  have e1 : bodies.d = 1 := rfl
  rw [e1, mul_one]
  have w00 : b.w h 0 0 = 1 + h ^ 2 := by
    simp [Base.w, a3, a4, Sparse.Data.get, Sparse.Data.find]
  have w01 : b.w h 0 1 = - h ^ 2 := by
    simp [Base.w, a3, a4, Sparse.Data.get, Sparse.Data.find]
  have w10 : b.w h 1 0 = - h ^ 2 := by
    simp [Base.w, a3, a4, Sparse.Data.get, Sparse.Data.find]
  have w11 : b.w h 1 1 = 1 + h ^ 2 := by
    simp [Base.w, a3, a4, Sparse.Data.get, Sparse.Data.find]
  refine ⟨fun k hk => ?_, ?_⟩
  · have : k = 0 ∨ k = 1 ∨ k = 2 := by omega
    rcases this with rfl | rfl | rfl
    · simp
    · rw [Matrix.det_fin_one]
      show b.w h 0 0 ≠ 0
      rw [w00]
      positivity
    · rw [Matrix.det_fin_two]
      show b.w h 0 0 * b.w h 1 1 - b.w h 0 1 * b.w h 1 0 ≠ 0
      rw [w00, w01, w10, w11]
      have : (1 + h ^ 2) * (1 + h ^ 2) - -h ^ 2 * -h ^ 2 = 1 + 2 * h ^ 2 := by ring
      rw [this]
      positivity
  · rintro r c hrc ⟨r', hr', hp'⟩
    obtain ⟨hp1, hp2, hp3⟩ := hp'
    have hc : c = 1 := by omega
    have hr : r = 0 := by omega
    obtain rfl : r' = r := by omega
    exact ⟨c, le_rfl, hp1, hp2, hp3⟩

/-- Runs of W1 keep the momentum of the bodies, although the Jacobian has no derivatives with respect to velocities (C38). -/
example (o : Outputs) (d : ℚ) (fuel : Nat) (evs : List (Ev ℚ (List ℚ))) (s' : St ℚ Unit)
    (h : solveOde (w1 bodies) o d fuel bodiesStart = some (evs, .ok s')) : dot 4 momentum s'.x = 1 := by
  have e : dot 4 momentum bodiesStart.x = 1 := by decide +kernel
  refine Eq.trans ?_ e
  exact (C144_w1 bodies_fair bodiesStart rfl rfl (by decide +kernel) bodies_regular o d fuel evs _ h).2 s' rfl

/-- So do runs of SW2(4) without error control. -/
example (o : Outputs) (d : ℚ) (p fuel : Nat) (evs : List (Ev ℚ (List ℚ))) (s' : St ℚ Unit)
    (h : solveOde (sw24 bodies p) o d fuel bodiesStart = some (evs, .ok s')) : dot 4 momentum s'.x = 1 := by
  have e : dot 4 momentum bodiesStart.x = 1 := by decide +kernel
  refine Eq.trans ?_ e
  exact (C144_sw24 bodies_fair (.inr (.inl rfl)) bodiesStart rfl rfl (by decide +kernel) bodies_regular o d p fuel evs _ h).2 s' rfl

/-- Such runs exist, and the bodies exchange momentum. -/
example : (match solveOde (w1 bodies) ⟨none, none, none⟩ 2 5 bodiesStart with
    | some (evs, .ok s') => decide (evs.length = 2 ∧ s'.t = 2 ∧ s'.x.getD 2 0 ≠ 1 ∧ dot 4 momentum s'.x = 1)
    | _ => false) = true := by decide +kernel

/-- The same reaction and the method of Gragg, alone and extrapolated -/
example : ∃ φ : ℚ × ℚ →ₗ[ℚ] ℚ, (∀ x, φ x = x.1 + x.2) ∧
    ∀ (smooth : Bool), RefKeeps φ (⟨fun _ x => (-(x.1 * x.1), x.1 * x.1), none, smooth⟩ : Extrap.GrMethod ℚ (ℚ × ℚ) Unit).ref :=
  ⟨LinearMap.fst ℚ ℚ ℚ + LinearMap.snd ℚ ℚ ℚ, fun _ => rfl, fun _ => C144_ref_gragg (fun _ _ => by simp) (fun _ h => by cases h)⟩

end Verif.Driver.Invariants
