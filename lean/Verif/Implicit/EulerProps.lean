import Verif.Implicit.Model
import Verif.Vec.Props
import Verif.Alg.SolverProps

/-! # The implicit Euler step mapping and solver -/

namespace Verif.Implicit

open Verif.Res Verif.Alg Verif.Vec

set_option linter.unusedSectionVars false

section
variable {K : Type} [Field K]

/-! ### Vector operations -/

theorem getD_range_map {n i : Nat} (f : Nat → K) (h : i < n) :
    ((List.range n).map f).getD i 0 = f i := by
  simp [List.getD_eq_getElem?_getD, h]

theorem updated_whole {g : K → K → K} {mem v m : List K}
    (h : Updated g mem ⟨0, mem.length⟩ v mem.length m) :
    m = (List.range mem.length).map (fun i => g (mem.getD i 0) (v.getD i 0)) := by
  refine ext_getD (by simp [h.1]) (fun i hi => ?_)
  rw [h.2, if_pos ⟨Nat.zero_le _, by simp at hi ⊢; omega⟩, getD_range_map _ (by simpa using hi)]
  simp

theorem addWhole_ok {mem : List K} {s : Src K} {v : List K} (hv : s.val mem = some v)
    (ho : s.origin = none) (hl : mem.length ≤ v.length) :
    done (addAssign mem ⟨0, mem.length⟩ s) =
      .ok ((List.range mem.length).map (fun i => mem.getD i 0 + v.getD i 0)) := by
  obtain ⟨⟨m, h1, h2⟩, -, -⟩ := C65_update mem ⟨0, mem.length⟩ (by simp) s v hv hl
    (fun o h => by rw [ho] at h; cases h) 0
  rw [h1, updated_whole h2]
  rfl

theorem subWhole_ok {mem : List K} {s : Src K} {v : List K} (hv : s.val mem = some v)
    (ho : s.origin = none) (hl : mem.length ≤ v.length) :
    done (subAssign mem ⟨0, mem.length⟩ s) =
      .ok ((List.range mem.length).map (fun i => mem.getD i 0 - v.getD i 0)) := by
  obtain ⟨-, ⟨m, h1, h2⟩, -⟩ := C65_update mem ⟨0, mem.length⟩ (by simp) s v hv hl
    (fun o h => by rw [ho] at h; cases h) 0
  rw [h1, updated_whole h2]
  rfl

theorem mulWhole_ok (mem : List K) (c : K) :
    done (mulAssign mem ⟨0, mem.length⟩ c) =
      .ok ((List.range mem.length).map (fun i => mem.getD i 0 * c)) := by
  obtain ⟨-, -, ⟨m, h1, h2⟩⟩ := C65_update mem ⟨0, mem.length⟩ (by simp) (.vec mem) mem rfl le_rfl
    (fun o h => by cases h) c
  rw [h1, updated_whole h2]
  rfl

theorem addBlock_ok {mem : List K} {st n : Nat} {s : Src K} {v : List K} (hv : s.val mem = some v)
    (ho : s.origin = none) (ht : st + n ≤ mem.length) (hl : n ≤ v.length) :
    ∃ m, done (addAssign mem ⟨st, n⟩ s) = .ok m ∧ Updated (· + ·) mem ⟨st, n⟩ v n m := by
  obtain ⟨⟨m, h1, h2⟩, -, -⟩ := C65_update mem ⟨st, n⟩ ht s v hv hl
    (fun o h => by rw [ho] at h; cases h) 0
  exact ⟨m, by rw [h1]; rfl, h2⟩

theorem assignBlock_ok {mem : List K} {st n : Nat} {s : Src K} {v : List K} (hv : s.val mem = some v)
    (ho : s.origin = none) (ht : st + n ≤ mem.length) (hl : v.length = n) :
    ∃ m, done (assignBlock mem ⟨st, n⟩ s) = .ok m ∧ Updated (fun _ b => b) mem ⟨st, n⟩ v n m := by
  obtain ⟨m, h1, h2⟩ := (C65_assign mem s v hv).2 ⟨st, n⟩ ht hl (fun o h => by rw [ho] at h; cases h)
  exact ⟨m, by rw [h1]; rfl, h2⟩

theorem block_val (mem : List K) {l : List K} {st n : Nat} (h : st + n ≤ l.length) :
    (Src.block (.vec l) st n).val mem = some ((l.drop st).take n) := by
  simp only [Src.val, if_pos h]

theorem scaleBlock_val (mem : List K) {l : List K} {st n : Nat} (c : K) (h : st + n ≤ l.length) :
    (Src.scale (.block (.vec l) st n) c).val mem = some (((l.drop st).take n).map (· * c)) := by
  simp only [Src.val, if_pos h, Option.map_some]

theorem getD_block {l : List K} {st n i : Nat} (hi : i < n) :
    ((l.drop st).take n).getD i 0 = l.getD (st + i) 0 := by
  rw [getD_take_drop hi, Nat.add_comm]

theorem getD_scaled {l : List K} {c : K} {i : Nat} : (l.map (· * c)).getD i 0 = l.getD i 0 * c := by
  by_cases h : i < l.length
  · exact getD_map h
  · simp [List.getD_eq_getElem?_getD, List.getElem?_eq_none (show l.length ≤ i by omega)]

theorem getD_append_lt {a b : List K} {i : Nat} (h : i < a.length) : (a ++ b).getD i 0 = a.getD i 0 := by
  simp [List.getD_eq_getElem?_getD, List.getElem?_append_left h]

theorem getD_append_ge {a b : List K} {i : Nat} (h : a.length ≤ i) :
    (a ++ b).getD i 0 = b.getD (i - a.length) 0 := by
  simp [List.getD_eq_getElem?_getD, List.getElem?_append_right h]

/-! ### The step mapping -/

/-- The state of the differential equations with `x` in place of velocities and variables of first order:
positions are `x0 + h*((1-alpha)*v0 + alpha*v)`. -/
def full (n2 : Nat) (alpha h : K) (x0 x : List K) : List K :=
  (List.range n2).map (fun i =>
    x0.getD i 0 + h * ((1 - alpha) * x0.getD (n2 + i) 0 + alpha * x.getD i 0)) ++ x

/-- The residual of the equations of the alpha method -/
def residual (n2 n1 : Nat) (alpha h : K) (x0 x f0 f1 : List K) : List K :=
  (List.range (n2 + n1)).map (fun i => x.getD i 0 - x0.getD (n2 + i) 0 -
    h * ((1 - alpha) * f0.getD (n2 + i) 0 + alpha * f1.getD (n2 + i) 0))

theorem expandState_ok (r : Rhs K) (m : EMap K) {dst x : List K} (hd : dst.length = r.varCount)
    (hx0 : m.x0.length = r.varCount) (hx : x.length = r.n2 + r.n1) :
    m.expandState r dst x = .ok (full r.n2 m.alpha m.h m.x0 x) := by
  unfold Rhs.varCount at hd hx0
  unfold EMap.expandState
  obtain ⟨d1, e1, u1⟩ := assignBlock_ok (mem := dst) (st := 0) (n := r.n2)
    (block_val dst (l := m.x0) (st := 0) (n := r.n2) (by omega)) rfl (by omega) (by simp; omega)
  have l1 := u1.1
  obtain ⟨d2, e2, u2⟩ := addBlock_ok (mem := d1) (st := 0) (n := r.n2)
    (scaleBlock_val d1 (l := m.x0) (st := r.n2) (n := r.n2) (m.h * (1 - m.alpha)) (by omega)) rfl (by omega)
    (by simp; omega)
  have l2 := u2.1
  obtain ⟨d3, e3, u3⟩ := addBlock_ok (mem := d2) (st := 0) (n := r.n2)
    (scaleBlock_val d2 (l := x) (st := 0) (n := r.n2) (m.h * m.alpha) (by omega)) rfl (by omega)
    (by simp; omega)
  have l3 := u3.1
  obtain ⟨d4, e4, u4⟩ := assignBlock_ok (mem := d3) (st := r.n2) (n := r.n2 + r.n1)
    (s := .vec x) (v := x) rfl rfl (by omega) hx
  have l4 := u4.1
  dsimp only
  rw [e1, bind_ok, e2, bind_ok, e3, bind_ok, e4]
  congr 1
  refine ext_getD (by simp [full]; omega) (fun i hi => ?_)
  rw [u4.2, u3.2, u2.2, u1.2]
  simp only [full, List.length_append, List.length_map, List.length_range] at hi
  by_cases h : i < r.n2
  · rw [if_neg (by simp only; omega), if_pos (by simp only; omega), if_pos (by simp only; omega),
      if_pos (by simp only; omega)]
    simp only [Nat.sub_zero]
    rw [getD_scaled, getD_scaled, getD_block h, getD_block h, getD_block h]
    unfold full
    rw [getD_append_lt (by simpa using h), getD_range_map _ h]
    simp only [Nat.zero_add]
    ring
  · rw [if_pos (by simp only; omega)]
    unfold full
    rw [getD_append_ge (by simp; omega)]
    simp

theorem full_length (n2 : Nat) (alpha h : K) (x0 x : List K) :
    (full n2 alpha h x0 x).length = n2 + x.length := by
  simp [full]

theorem full_pos {n2 i : Nat} (alpha h : K) (x0 x : List K) (hi : i < n2) :
    (full n2 alpha h x0 x).getD i 0 =
      x0.getD i 0 + h * ((1 - alpha) * x0.getD (n2 + i) 0 + alpha * x.getD i 0) := by
  unfold full
  rw [getD_append_lt (by simpa using hi), getD_range_map _ hi]

theorem full_eqn {n2 : Nat} (alpha h : K) (x0 x : List K) (i : Nat) :
    (full n2 alpha h x0 x).getD (n2 + i) 0 = x.getD i 0 := by
  unfold full
  rw [getD_append_ge (by simp)]
  simp

/-- The cache holds what it should hold. -/
def Fresh (r : Rhs K) (m : EMap K) : Prop :=
  m.valid = true → ∃ f, r.rhs m.t0 m.x0 = .ok f ∧ m.f0.length = f.length ∧
    ∀ i, m.f0.getD i 0 = f.getD i 0 * (-m.h * (1 - m.alpha))

theorem getD_map_range_any {n : Nat} {f : Nat → K} {i : Nat} (h0 : ∀ i, n ≤ i → f i = 0) :
    ((List.range n).map f).getD i 0 = f i := by
  by_cases h : i < n
  · exact getD_range_map f h
  · rw [h0 i (by omega)]
    simp [List.getD_eq_getElem?_getD, h]

theorem computeF0_ok (r : Rhs K) {m : EMap K} (hm : Fresh r m) {f : List K}
    (hf : r.rhs m.t0 m.x0 = .ok f) :
    ∃ g, m.computeF0Scaled r = .ok { m with f0 := g, valid := true } ∧ g.length = f.length ∧
      ∀ i, g.getD i 0 = f.getD i 0 * (-m.h * (1 - m.alpha)) := by
  unfold EMap.computeF0Scaled
  split
  · rename_i hv
    obtain ⟨f', h1, h2, h3⟩ := hm hv
    rw [hf] at h1
    cases h1
    refine ⟨m.f0, ?_, h2, h3⟩
    rw [← hv]
  · rw [hf, bind_ok, mulWhole_ok, bind_ok]
    refine ⟨_, rfl, by simp, fun i => ?_⟩
    rw [getD_map_range_any]
    intro j hj
    simp [List.getD_eq_getElem?_getD, hj]

/-- What the mapping computes -/
theorem map_ok (r : Rhs K) {m : EMap K} (hm : Fresh r m) (hx0 : m.x0.length = r.varCount) {x f0 f1 : List K}
    (hx : x.length = r.n2 + r.n1) (hf0 : r.rhs m.t0 m.x0 = .ok f0) (hl0 : f0.length = r.varCount)
    (hf1 : r.rhs (m.t0 + m.h) (full r.n2 m.alpha m.h m.x0 x) = .ok f1) (hl1 : f1.length = r.varCount) :
    ∃ m', m.map r x = .ok (m', residual r.n2 r.n1 m.alpha m.h m.x0 x f0 f1) := by
  obtain ⟨g, e1, e2, e3⟩ := computeF0_ok r hm hf0
  have hv : r.varCount = 2 * r.n2 + r.n1 := rfl
  unfold EMap.map
  rw [e1, bind_ok, expandState_ok r { m with f0 := g, valid := true } (by simp [hv]) hx0 hx, bind_ok]
  dsimp only
  rw [hf1, bind_ok, subWhole_ok (block_val x (by omega)) rfl (by simp; omega), bind_ok,
    addWhole_ok (block_val _ (by omega)) rfl (by simp; omega), bind_ok,
    addWhole_ok (scaleBlock_val _ _ (by omega)) rfl (by simp; omega), bind_ok]
  refine ⟨_, congrArg Except.ok (Prod.ext rfl ?_)⟩
  dsimp only
  refine ext_getD (by simp [residual, hx]) (fun i hi => ?_)
  have hi : i < r.n2 + r.n1 := by simpa [residual] using hi
  unfold residual
  rw [getD_range_map _ (by simpa using hi.trans_eq hx.symm), getD_range_map _ (by simpa using hi.trans_eq hx.symm),
    getD_range_map _ (by simpa using hi.trans_eq hx.symm), getD_range_map _ hi, getD_scaled, getD_block hi, getD_block hi,
    getD_block hi, e3]
  ring

/-! ### C36: the cache -/

/-- Calls of a step mapping -/
inductive Call (K : Type) where
  | state (t : K) (x : List K)
  | step (h : K)
  | alpha (a : K)
  | map (x : List K)

/-- The mapping after a call; a failed `map` leaves what `computeF0Scaled` has left. -/
def Call.run (r : Rhs K) : Call K → EMap K → EMap K
  | .state t x, m => m.setInitialState t x
  | .step h, m => m.setTimeStep h
  | .alpha a, m => m.setAlpha a
  | .map x, m =>
    match m.map r x, m.computeF0Scaled r with
    | .ok p, _ => p.1
    | .error _, .ok m' => m'
    | .error _, .error _ => m

/-- Settings: alpha, step, time, state -/
abbrev Settings (K : Type) := K × K × K × List K

/-- What a call does to the settings -/
def Call.set : Call K → Settings K → Settings K
  | .state t x, s => (s.1, s.2.1, t, x)
  | .step h, s => (s.1, h, s.2.2)
  | .alpha a, s => (a, s.2)
  | .map _, s => s

/-- The settings a mapping has -/
def EMap.settings (m : EMap K) : Settings K := (m.alpha, m.h, m.t0, m.x0)

theorem fresh_compute {r : Rhs K} {m m' : EMap K} (hm : Fresh r m) (h : m.computeF0Scaled r = .ok m') :
    Fresh r m' ∧ m'.settings = m.settings := by
  by_cases hv : m.valid = true
  · unfold EMap.computeF0Scaled at h
    rw [if_pos hv] at h
    cases h
    exact ⟨hm, rfl⟩
  · cases hf : r.rhs m.t0 m.x0 with
    | error e =>
      unfold EMap.computeF0Scaled at h
      rw [if_neg hv, hf] at h
      cases h
    | ok f =>
      obtain ⟨g, e1, e2, e3⟩ := computeF0_ok r hm hf
      rw [h] at e1
      cases e1
      exact ⟨fun _ => ⟨f, hf, e2, e3⟩, rfl⟩

theorem map_state {r : Rhs K} {m : EMap K} {x : List K} {p : EMap K × List K} (h : m.map r x = .ok p) :
    m.computeF0Scaled r = .ok p.1 := by
  unfold EMap.map at h
  obtain ⟨m1, h1, h⟩ := bind_inv h
  obtain ⟨_, -, h⟩ := bind_inv h
  obtain ⟨_, -, h⟩ := bind_inv h
  obtain ⟨_, -, h⟩ := bind_inv h
  obtain ⟨_, -, h⟩ := bind_inv h
  obtain ⟨_, -, h⟩ := bind_inv h
  cases h
  exact h1

theorem fresh_run (r : Rhs K) (c : Call K) {m : EMap K} (hm : Fresh r m) :
    Fresh r (c.run r m) ∧ (c.run r m).settings = c.set m.settings := by
  cases c with
  | state t x => exact ⟨(fun h => by cases h), rfl⟩
  | step h => exact ⟨(fun h => by cases h), rfl⟩
  | alpha a => exact ⟨(fun h => by cases h), rfl⟩
  | map x =>
    simp only [Call.run]
    split
    · rename_i p _ h
      exact fresh_compute hm (map_state h)
    · rename_i m' _ h
      exact fresh_compute hm h
    · exact ⟨hm, rfl⟩

theorem fresh_calls (r : Rhs K) (cs : List (Call K)) {m : EMap K} (hm : Fresh r m) :
    Fresh r (cs.foldl (fun m c => c.run r m) m) ∧
      (cs.foldl (fun m c => c.run r m) m).settings = cs.foldl (fun s c => c.set s) m.settings := by
  induction cs generalizing m with
  | nil => exact ⟨hm, rfl⟩
  | cons c cs ih =>
    obtain ⟨h1, h2⟩ := fresh_run r c hm
    obtain ⟨h3, h4⟩ := ih h1
    refine ⟨h3, ?_⟩
    rw [List.foldl_cons, List.foldl_cons, h4, h2]

/-- C36: after any calls on a new mapping, `map` computes the residual for the settings made last. -/
theorem C36_calls (r : Rhs K) (cs : List (Call K)) {alpha h t0 : K} {x0 x f0 f1 : List K}
    (hs : cs.foldl (fun s c => c.set s) (EMap.new : EMap K).settings = (alpha, h, t0, x0))
    (hx0 : x0.length = 2 * r.n2 + r.n1) (hx : x.length = r.n2 + r.n1)
    (hf0 : r.rhs t0 x0 = .ok f0) (hl0 : f0.length = 2 * r.n2 + r.n1)
    (hf1 : r.rhs (t0 + h) (full r.n2 alpha h x0 x) = .ok f1) (hl1 : f1.length = 2 * r.n2 + r.n1) :
    ∃ m', (cs.foldl (fun m c => c.run r m) EMap.new).map r x =
      .ok (m', residual r.n2 r.n1 alpha h x0 x f0 f1) := by
  obtain ⟨h1, h2⟩ := fresh_calls r cs (m := (EMap.new : EMap K)) (fun h => by cases h)
  rw [hs] at h2
  generalize cs.foldl (fun m c => c.run r m) EMap.new = m at *
  cases h2
  exact map_ok r h1 hx0 hx hf0 hl0 hf1 hl1

/-- A pendulum without gravity: `x' = v`, `v' = -x`, and `z' = t` -/
def exRhs : Rhs ℚ := ⟨1, 1, fun t x => .ok [x.getD 1 0, -x.getD 0 0, t]⟩

/-- The hypotheses of `C36_calls` are met; the cache is filled and dropped on the way. -/
example : ∃ m', ([Call.state 0 [1, 2, 3], .map [0, 0], .alpha (1 / 2), .map [0, 0], .step 2,
      .map [4, 5], .map [7, 7]].foldl (fun m c => c.run exRhs m) EMap.new).map exRhs [4, 5] =
    .ok (m', residual 1 1 (1 / 2) 2 [1, 2, 3] [4, 5] [2, -1, 0] [4, -7, 2]) := by
  refine C36_calls exRhs _ rfl rfl rfl rfl rfl ?_ rfl
  decide +kernel

/-- C89 (`_partial`: only right-hand sides set before the state, the step or alpha): with another
right-hand side set before one of these calls, `map` uses it. -/
theorem C89_partial (r : Rhs K) (m : EMap K) (c : Call K) (hc : ∀ x, c ≠ .map x) {x f0 f1 : List K}
    (hx0 : (c.run r m).x0.length = 2 * r.n2 + r.n1) (hx : x.length = r.n2 + r.n1)
    (hf0 : r.rhs (c.run r m).t0 (c.run r m).x0 = .ok f0) (hl0 : f0.length = 2 * r.n2 + r.n1)
    (hf1 : r.rhs ((c.run r m).t0 + (c.run r m).h)
      (full r.n2 (c.run r m).alpha (c.run r m).h (c.run r m).x0 x) = .ok f1)
    (hl1 : f1.length = 2 * r.n2 + r.n1) :
    ∃ m', (c.run r m).map r x =
      .ok (m', residual r.n2 r.n1 (c.run r m).alpha (c.run r m).h (c.run r m).x0 x f0 f1) := by
  refine map_ok r ?_ hx0 hx hf0 hl0 hf1 hl1
  cases c with
  | state t x => exact fun h => by cases h
  | step h => exact fun h => by cases h
  | alpha a => exact fun h => by cases h
  | map x => exact absurd rfl (hc x)

/-- C89 fails: `setOdeRhs` leaves the cache. After `map` with `x' = 0` and `setOdeRhs` to `x' = 1` the value
at the solution 1 of the trapezoidal rule is 1/2 instead of 0. -/
theorem C89_false : ∃ r1 r2 : Rhs ℚ, r1.n2 = r2.n2 ∧ r1.n1 = r2.n1 ∧
    ∃ m : EMap ℚ, m = [Call.state 0 [0], .alpha (1 / 2), .step 1, .map [0]].foldl (fun m c => c.run r1 m) EMap.new ∧
      (∃ m', m.map r2 [1] = .ok (m', [1 / 2])) ∧
      r2.rhs 0 [0] = .ok [1] ∧ r2.rhs 1 [1] = .ok [1] ∧
      residual r2.n2 r2.n1 (1 / 2 : ℚ) 1 [0] [1] [1] [1] = [0] := by
  refine ⟨⟨0, 1, fun _ _ => .ok [0]⟩, ⟨0, 1, fun _ _ => .ok [1]⟩, rfl, rfl, _, rfl, ?_, rfl, rfl, ?_⟩
  · obtain ⟨p, h1, h2⟩ := Verif.Res.exists_of_test
      (r := EMap.map (K := ℚ) ⟨0, 1, fun _ _ => .ok [1]⟩ ([Call.state 0 [0], .alpha (1 / 2), .step 1, .map [0]].foldl
        (fun m c => c.run ⟨0, 1, fun _ _ => .ok [0]⟩ m) EMap.new) [1])
      (p := fun p => decide (p.2 = [1 / 2])) (by decide +kernel)
    refine ⟨p.1, ?_⟩
    rw [h1, ← of_decide_eq_true h2]
  · decide +kernel

end

/-! ### C35: the step -/

section
variable {K D E : Type} [Field K] [LinearOrder K] [IsStrictOrderedRing K]

/-- Right-hand sides work on states of the right size. -/
def Works (r : Rhs K) : Prop :=
  ∀ t x, x.length = 2 * r.n2 + r.n1 → ∃ f, r.rhs t x = .ok f ∧ f.length = 2 * r.n2 + r.n1

/-- `X1` solves the equations of the alpha method within `tol`. -/
def Solves (r : Rhs K) (alpha h t0 : K) (tol : K) (X0 X1 : List K) : Prop :=
  X1.length = 2 * r.n2 + r.n1 ∧ ∃ f0 f1, r.rhs t0 X0 = .ok f0 ∧ r.rhs (t0 + h) X1 = .ok f1 ∧
    (∀ i, i < r.n2 → X1.getD i 0 = X0.getD i 0 + h * ((1 - alpha) * X0.getD (r.n2 + i) 0 + alpha * X1.getD (r.n2 + i) 0)) ∧
    ∀ i, r.n2 ≤ i → i < 2 * r.n2 + r.n1 →
      |X1.getD i 0 - (X0.getD i 0 + h * ((1 - alpha) * f0.getD i 0 + alpha * f1.getD i 0))| ≤ tol

theorem solves_of_map {r : Rhs K} (hw : Works r) {m : EMap K} (hm : Fresh r m)
    (hx0 : m.x0.length = 2 * r.n2 + r.n1) {x f : List K} (hx : x.length = r.n2 + r.n1) {tol : K}
    (hf : (m.mapping r).map x = .ok f) (ht : ∀ v ∈ f, |v| ≤ tol) :
    Solves r m.alpha m.h m.t0 tol m.x0 (full r.n2 m.alpha m.h m.x0 x) := by
  obtain ⟨f0, a1, a2⟩ := hw m.t0 m.x0 hx0
  have hl : (full r.n2 m.alpha m.h m.x0 x).length = 2 * r.n2 + r.n1 := by rw [full_length]; omega
  obtain ⟨f1, b1, b2⟩ := hw (m.t0 + m.h) _ hl
  obtain ⟨m', h1⟩ := map_ok r hm hx0 hx a1 a2 b1 b2
  refine ⟨hl, f0, f1, a1, b1, fun i hi => ?_, fun i h1i h2i => ?_⟩
  · rw [full_pos _ _ _ _ hi, full_eqn]
  · have hf' : (m.mapping r).map x = .ok (residual r.n2 r.n1 m.alpha m.h m.x0 x f0 f1) := by
      show (m.map r x >>= fun p => .ok p.2) = _
      rw [h1]
      rfl
    rw [hf] at hf'
    cases hf'
    obtain ⟨j, rfl⟩ : ∃ j, i = r.n2 + j := ⟨i - r.n2, by omega⟩
    have := ht _ (List.mem_map.2 ⟨j, List.mem_range.2 (by omega), rfl⟩)
    rw [full_eqn]
    convert this using 2
    ring

theorem run_length {P : Parts D K} {observers : Nat → Perf D K → Res Bool} {limit : Nat} {s s' : Perf D K}
    {st : RunStatus} (h : (P.env observers).run limit s = .ok (s', st)) : s'.x.length = s.x.length := by
  refine (run_inv (P.env observers) (fun t : Perf D K => t.x.length = s.x.length) ?_ ?_ ?_ ?_ ?_ ?_ h).1
  · intro s1 h1
    cases h1
    rfl
  · rintro it t ⟨r, st'⟩ hI h1
    obtain ⟨t1, h2, h1⟩ := bind_inv h1
    have hx : t1.x = t.x := by
      unfold Perf.currentResidual at h2
      split at h2
      · cases h2
        rfl
      · obtain ⟨f, -, h2⟩ := bind_inv h2
        cases h2
        rfl
    obtain ⟨d, -, h1⟩ := bind_inv h1
    obtain ⟨q, -, h1⟩ := bind_inv h1
    obtain ⟨x, h3, h1⟩ := bind_inv h1
    obtain ⟨est, -, h1⟩ := bind_inv h1
    cases h1
    obtain ⟨x', e1, e2, -⟩ := addScaled_ok (addScaled_len h3) q.1
    rw [h3] at e1
    cases e1
    dsimp only
    rw [e2, hx, hI]
  · intro n t r hI h1
    obtain ⟨b, -, h1⟩ := bind_inv h1
    cases h1
    exact hI
  · intro t r hI h1
    cases h1
    exact hI
  · intro b t r hI h1
    cases h1
    exact hI
  · intro s1 s2 s3 h1 _ h3
    cases h1
    cases h3
    rfl

theorem unorder_dst {n : Nat} {ord : List Nat} (hp : IsPerm n ord) {x : List K} (hx : x.length = n)
    (d1 d2 : List K) : ∃ r, unorder d1 x ord = .ok r ∧ unorder d2 x ord = .ok r ∧ r.length = n := by
  obtain ⟨r1, a1, a2, a3⟩ := unorder_ok hp hx d1
  obtain ⟨r2, b1, b2, b3⟩ := unorder_ok hp hx d2
  have : r2 = r1 := by
    refine ext_getD (by omega) (fun k hk => ?_)
    obtain ⟨i, hi, rfl⟩ := hp.surj k (by omega)
    rw [a3 i hi, b3 i hi]
  exact ⟨r1, a1, by rw [b1, this], a2⟩

theorem eqnInitialState_ok (r : Rhs K) (m : EMap K) (h : m.x0.length = 2 * r.n2 + r.n1) :
    ∃ x, m.eqnInitialState r = .ok x ∧ x.length = r.n2 + r.n1 := by
  refine ⟨_, clone_val (block_val [] (by omega)), ?_⟩
  simp
  omega

theorem guess_length {M : IMethod D K E} {s : ISolver D K E} {h : K} {g : List K × List K}
    (hg : s.guess M h = .ok g) (hx0 : s.map.x0.length = 2 * (M.rhs s.ec).n2 + (M.rhs s.ec).n1)
    (hord : ∀ o, M.order = some o → IsPerm ((M.rhs s.ec).n2 + (M.rhs s.ec).n1) o.1 ∧
      IsPerm ((M.rhs s.ec).n2 + (M.rhs s.ec).n1) o.2)
    (hpred : ∀ p, M.predictor = some p → ∀ h n t x y, p h n t x = .ok y → x.length = y.length) :
    g.2.length = (M.rhs s.ec).n2 + (M.rhs s.ec).n1 := by
  unfold ISolver.guess at hg
  split at hg
  · rename_i p hp
    obtain ⟨y, h1, hg⟩ := bind_inv hg
    have hy := hpred p hp _ _ _ _ _ h1
    have hv := (C65_assign s.eqnbuf _ _ (block_val s.eqnbuf (l := y) (st := (M.rhs s.ec).n2)
      (n := (M.rhs s.ec).n2 + (M.rhs s.ec).n1) (by omega))).1 (Or.inl rfl)
    unfold computeEqnState at hg
    rw [hv] at hg
    have hl : ((y.drop (M.rhs s.ec).n2).take ((M.rhs s.ec).n2 + (M.rhs s.ec).n1)).length =
        (M.rhs s.ec).n2 + (M.rhs s.ec).n1 := by
      simp
      omega
    split at hg
    · rename_i o ho
      obtain ⟨e, h2, hg⟩ := bind_inv hg
      cases h2
      obtain ⟨e', h3, hg⟩ := bind_inv hg
      cases hg
      have := order_perm (hord o ho).1 hl
      dsimp only at h3 ⊢
      rw [h3] at this
      cases this
      simp
    · obtain ⟨e, h2, hg⟩ := bind_inv hg
      cases h2
      cases hg
      exact hl
  · obtain ⟨x, h1, h2⟩ := eqnInitialState_ok (M.rhs s.ec) s.map hx0
    split at hg
    · rename_i o ho
      obtain ⟨x', h3, hg⟩ := bind_inv hg
      rw [h1] at h3
      cases h3
      obtain ⟨e', h4, hg⟩ := bind_inv hg
      cases hg
      have := order_perm (hord o ho).1 h2
      dsimp only at h4 ⊢
      rw [h4] at this
      cases this
      simp
    · obtain ⟨x', h3, hg⟩ := bind_inv hg
      rw [h1] at h3
      cases h3
      cases hg
      exact h2

/-- C23 for the implicit Euler solver: a step whose Newton run does not converge throws, and the text of the
exception tells how the run ended. -/
theorem C23_euler (M : IMethod D K E) {s : ISolver D K E} {g : List K × List K} {e : E}
    {r : Perf D K × RunStatus}
    (hg : ({ s with map := s.map.setTimeStep s.hInit } : ISolver D K E).guess M s.hInit = .ok g)
    (he : (match M.ec with
      | some c => c.atStepStart s.ec s.map.x0 s.map.t0
      | none => .ok s.ec : Res E) = .ok e)
    (hr : ((M.parts (M.mapping4Newton s.ec (s.map.setTimeStep s.hInit))).env M.observers).run M.limit
      (s.perf.setInitialGuess (M.parts (M.mapping4Newton s.ec (s.map.setTimeStep s.hInit))) g.2 s.hard)
      = .ok r) :
    (r.2 = .diverged → s.doStep M = .error (.exc "Algebraic solver failed: diverged")) ∧
      (r.2 = .terminated → s.doStep M = .error (.exc "Algebraic solver failed: terminated")) ∧
      (r.2 = .limitExceeded →
        s.doStep M = .error (.exc "Algebraic solver failed: iteration count limit exceeded")) := by
  have key : r.2 ≠ .converged → s.doStep M = .error (.exc ("Algebraic solver failed: " ++ statusText r.2)) := by
    intro hne
    unfold ISolver.doStep
    dsimp only
    rw [hg]
    simp only [bind_ok]
    cases hec : M.ec with
    | none =>
      rw [hec] at he
      cases he
      simp only [bind_ok]
      rw [hr]
      simp only [bind_ok]
      rw [if_pos hne]
    | some c =>
      rw [hec] at he
      have he' : c.atStepStart s.ec (s.map.setTimeStep s.hInit).x0 (s.map.setTimeStep s.hInit).t0 = .ok e := he
      simp only [he', bind_ok]
      rw [hr]
      simp only [bind_ok]
      rw [if_pos hne]
  refine ⟨fun h => ?_, fun h => ?_, fun h => ?_⟩ <;>
  · rw [key (by rw [h]; exact fun h => by cases h), h]
    rfl

/-- C85 for the implicit Euler solver: the Newton solver is reset hard in the first step after a hard
`setInitialState` only; a step made since then, or a soft `setInitialState`, does not ask for it again. -/
theorem C85_euler (M : IMethod D K E) {s s' : ISolver D K E} {tr : RK.Trunc}
    (h : s.doStep M = .ok (s', tr)) :
    s'.hard = false ∧ ∀ t x, (s'.setInitialState t x true).hard = false ∧
      (s'.setInitialState t x false).hard = true := by
  have h1 : s'.hard = false := by
    unfold ISolver.doStep at h
    dsimp only at h
    obtain ⟨g, -, h⟩ := bind_inv h
    obtain ⟨e, -, h⟩ := bind_inv h
    obtain ⟨r, -, h⟩ := bind_inv h
    split at h
    · cases h
    · obtain ⟨eqn, -, h⟩ := bind_inv h
      obtain ⟨buf, -, h⟩ := bind_inv h
      obtain ⟨q, -, h⟩ := bind_inv h
      cases h
      rfl
  exact ⟨h1, fun t x => ⟨by simp [ISolver.setInitialState, h1], by simp [ISolver.setInitialState]⟩⟩

/-- C85. Several states given before a step: the reset asked for by one of them is not undone by the soft ones after it. -/
theorem C85_implicit_pending (M : IMethod D K E) {s s' : ISolver D K E} {tr : RK.Trunc} (h : s.doStep M = .ok (s', tr))
    (l : List (K × List K × Bool)) :
    (l.foldl (fun q c => q.setInitialState c.1 c.2.1 c.2.2) s').hard = l.any (fun c => !c.2.2) := by
  have key : ∀ (l : List (K × List K × Bool)) (q : ISolver D K E),
      (l.foldl (fun q c => q.setInitialState c.1 c.2.1 c.2.2) q).hard = (q.hard || l.any (fun c => !c.2.2)) := by
    intro l
    induction l with
    | nil => intro q; simp
    | cons c l ih =>
      intro q
      rw [List.foldl_cons, ih, List.any_cons]
      simp only [ISolver.setInitialState, Bool.or_assoc]
  rw [key, (C85_euler M h).1, Bool.false_or]

/-- C35: when a step succeeds, the state it has computed satisfies the equations of the alpha method: exactly
in positions, within the absolute tolerance of the Newton solver in all other variables. This is the
state given to the event controller, or the new state if there is none. -/
theorem C35_step (M : IMethod D K E) {tl : Nat} (hP : ∀ F, (M.parts F).F = F ∧ SimpleSearch (M.parts F) tl)
    {s s' : ISolver D K E} {tr : RK.Trunc} (h : s.doStep M = .ok (s', tr)) (hw : Works (M.rhs s.ec))
    (hx0 : s.map.x0.length = 2 * (M.rhs s.ec).n2 + (M.rhs s.ec).n1)
    (hord : ∀ o, M.order = some o → IsPerm ((M.rhs s.ec).n2 + (M.rhs s.ec).n1) o.1 ∧
      IsPerm ((M.rhs s.ec).n2 + (M.rhs s.ec).n1) o.2)
    (hpred : ∀ p, M.predictor = some p → ∀ h n t x y, p h n t x = .ok y → x.length = y.length)
    (ha : 0 ≤ s.perf.est.absTol) (hr : 0 ≤ s.perf.est.relTol) :
    ∃ X1, Solves (M.rhs s.ec) s.map.alpha s.hInit s.map.t0 s.perf.est.absTol s.map.x0 X1 ∧
      (M.ec = none → s'.map.x0 = X1 ∧ s'.map.t0 = s.map.t0 + s.hInit ∧ tr = RK.Trunc.none) ∧
      (∀ c, M.ec = some c → ∃ e, c.atStepStart s.ec s.map.x0 s.map.t0 = .ok e ∧
        c.atStepEnd e s.map.x0 X1 (s.map.t0 + s.hInit) = .ok (s'.ec, s'.map.x0, s'.map.t0, tr)) := by
  unfold ISolver.doStep at h
  dsimp only at h
  obtain ⟨m, hm⟩ : ∃ m, m = s.map.setTimeStep s.hInit := ⟨_, rfl⟩
  rw [← hm] at h
  have e1 : m.x0 = s.map.x0 := by rw [hm]; rfl
  have e2 : m.t0 = s.map.t0 := by rw [hm]; rfl
  have e3 : m.h = s.hInit := by rw [hm]; rfl
  have e4 : m.alpha = s.map.alpha := by rw [hm]; rfl
  have hfr : Fresh (M.rhs s.ec) m := by rw [hm]; exact fun h => by cases h
  obtain ⟨g, hg, h⟩ := bind_inv h
  have hgl := guess_length hg (by dsimp only; rw [e1]; exact hx0) hord hpred
  dsimp only at hgl
  obtain ⟨e, he, h⟩ := bind_inv h
  obtain ⟨⟨p, st⟩, hrun, h⟩ := bind_inv h
  obtain ⟨hPF, hPs⟩ := hP (M.mapping4Newton s.ec m)
  have hlen : p.x.length = (M.rhs s.ec).n2 + (M.rhs s.ec).n1 := by
    rw [run_length hrun]
    exact hgl
  split at h
  · cases h
  rename_i hst
  push Not at hst
  dsimp only at hst h
  subst hst
  obtain ⟨f, hf, hft⟩ := C88_converged hPs (.new _ _ _ _ _) hrun ha hr
  rw [hPF] at hf
  obtain ⟨eqn, heqn, h⟩ := bind_inv h
  obtain ⟨buf, hbuf, h⟩ := bind_inv h
  obtain ⟨q, hq, h⟩ := bind_inv h
  cases h
  -- the solution in the order of the equations
  have key : eqn.length = (M.rhs s.ec).n2 + (M.rhs s.ec).n1 ∧
      ∃ f, (m.mapping (M.rhs s.ec)).map eqn = .ok f ∧ ∀ v ∈ f, |v| ≤ s.perf.est.absTol := by
    unfold IMethod.mapping4Newton at hf
    cases ho : M.order with
    | none =>
      rw [ho] at hf heqn
      dsimp only at hf heqn
      cases heqn
      exact ⟨hlen, f, hf, hft⟩
    | some o =>
      rw [ho] at hf heqn
      dsimp only at hf heqn
      obtain ⟨p1, p2⟩ := hord o ho
      obtain ⟨r, r1, r2, r3⟩ := unorder_dst p1 hlen g.1 []
      rw [heqn] at r1
      cases r1
      refine ⟨r3, ?_⟩
      unfold reordered at hf
      dsimp only at hf
      rw [r2, bind_ok] at hf
      obtain ⟨d, hd, hf⟩ := bind_inv hf
      refine ⟨d, hd, ?_⟩
      have hdl : d.length = (M.rhs s.ec).n2 + (M.rhs s.ec).n1 := by
        obtain ⟨f0, a1, a2⟩ := hw m.t0 m.x0 (by rw [e1]; exact hx0)
        obtain ⟨f1, b1, b2⟩ := hw (m.t0 + m.h) (full (M.rhs s.ec).n2 m.alpha m.h m.x0 eqn)
          (by rw [full_length]; omega)
        obtain ⟨m', h1⟩ := map_ok _ hfr (by rw [e1]; exact hx0) r3 a1 a2 b1 b2
        have hd' : (m.map (M.rhs s.ec) eqn >>= fun p => .ok p.2) = .ok d := hd
        rw [h1] at hd'
        cases hd'
        simp [residual]
      rw [order_perm p2 hdl] at hf
      cases hf
      intro v hv
      obtain ⟨k, hk, rfl⟩ := List.getElem_of_mem hv
      obtain ⟨i, hi, he⟩ := p2.surj k (by omega)
      refine hft _ (List.mem_map.2 ⟨i, List.mem_range.2 hi, ?_⟩)
      rw [he, List.getD_eq_getElem?_getD, List.getElem?_eq_getElem hk, Option.getD_some]
  obtain ⟨k1, f', k2, k3⟩ := key
  have hS := solves_of_map hw hfr (by rw [e1]; exact hx0) k1 k2 k3
  unfold EMap.computeOdeState at hbuf
  rw [expandState_ok _ _ (resize_length _ _) (by rw [e1]; exact hx0) k1] at hbuf
  cases hbuf
  refine ⟨full (M.rhs s.ec).n2 m.alpha m.h m.x0 eqn, ?_, fun hec => ?_, fun c hec => ?_⟩
  · rw [e1, e2, e3, e4] at hS
    rw [e1, e3, e4]
    exact hS
  · rw [hec] at hq
    dsimp only at hq
    cases hq
    exact ⟨rfl, by rw [← e2]; rfl, rfl⟩
  · rw [hec] at hq he
    dsimp only at hq he
    rw [e1, e2] at he hq
    exact ⟨e, he, by rw [e1]; exact hq⟩

/-- The first `n2` components of the right-hand side are the velocities. -/
def Kinematic (r : Rhs K) : Prop :=
  ∀ t x f, r.rhs t x = .ok f → ∀ i, i < r.n2 → f.getD i 0 = x.getD (r.n2 + i) 0

/-- C35: if the Newton solver leaves no residual, the equations hold in all components. -/
theorem C35_all {r : Rhs K} (hk : Kinematic r) {alpha h t0 : K} {X0 X1 : List K}
    (hs : Solves r alpha h t0 0 X0 X1) : ∃ f0 f1, r.rhs t0 X0 = .ok f0 ∧ r.rhs (t0 + h) X1 = .ok f1 ∧
      ∀ i, i < 2 * r.n2 + r.n1 →
        X1.getD i 0 = X0.getD i 0 + h * ((1 - alpha) * f0.getD i 0 + alpha * f1.getD i 0) := by
  obtain ⟨-, f0, f1, h0, h1, h2, h3⟩ := hs
  refine ⟨f0, f1, h0, h1, fun i hi => ?_⟩
  by_cases hi2 : i < r.n2
  · rw [h2 i hi2, hk _ _ _ h0 i hi2, hk _ _ _ h1 i hi2]
  · have := abs_nonpos_iff.1 (h3 i (by omega) hi)
    linarith

/-! ### C90: stability -/

/-- The scalar product of the first `n` components -/
def sprod (n : Nat) (a b : Nat → K) : K := ∑ i ∈ Finset.range n, a i * b i

/-- C90: with alpha 1 the method is contractive: for a right-hand side that never drives two states apart
(at the end of the step), the distance of two solutions does not grow, for any step size. -/
theorem C90_contractive {r : Rhs K} (hk : Kinematic r) {h t0 : K} (hh : 0 ≤ h) {X0 X1 Y0 Y1 : List K}
    (hX : Solves r 1 h t0 0 X0 X1) (hY : Solves r 1 h t0 0 Y0 Y1)
    (hmono : ∀ f g, r.rhs (t0 + h) X1 = .ok f → r.rhs (t0 + h) Y1 = .ok g →
      sprod (2 * r.n2 + r.n1) (fun i => f.getD i 0 - g.getD i 0) (fun i => X1.getD i 0 - Y1.getD i 0) ≤ 0) :
    sprod (2 * r.n2 + r.n1) (fun i => X1.getD i 0 - Y1.getD i 0) (fun i => X1.getD i 0 - Y1.getD i 0) ≤
      sprod (2 * r.n2 + r.n1) (fun i => X0.getD i 0 - Y0.getD i 0) (fun i => X0.getD i 0 - Y0.getD i 0) := by
  obtain ⟨f0, f1, -, a1, a2⟩ := C35_all hk hX
  obtain ⟨g0, g1, -, b1, b2⟩ := C35_all hk hY
  have hm := mul_nonpos_of_nonneg_of_nonpos hh (hmono f1 g1 a1 b1)
  unfold sprod at hm ⊢
  rw [Finset.mul_sum] at hm
  have : ∑ i ∈ Finset.range (2 * r.n2 + r.n1), ((X1.getD i 0 - Y1.getD i 0) * (X1.getD i 0 - Y1.getD i 0) -
      (X0.getD i 0 - Y0.getD i 0) * (X0.getD i 0 - Y0.getD i 0)) ≤
      2 * ∑ i ∈ Finset.range (2 * r.n2 + r.n1),
        h * ((f1.getD i 0 - g1.getD i 0) * (X1.getD i 0 - Y1.getD i 0)) := by
    rw [Finset.mul_sum]
    refine Finset.sum_le_sum (fun i hi => ?_)
    have hi := Finset.mem_range.1 hi
    have e1 : X0.getD i 0 = X1.getD i 0 - h * f1.getD i 0 := by rw [a2 i hi]; ring
    have e2 : Y0.getD i 0 = Y1.getD i 0 - h * g1.getD i 0 := by rw [b2 i hi]; ring
    rw [e1, e2]
    nlinarith [sq_nonneg (h * (f1.getD i 0 - g1.getD i 0))]
  rw [Finset.sum_sub_distrib] at this
  linarith

/-- C90: with alpha at least 1/2 the method is stable: for a linear right-hand side that does not let the
norm of any state grow, the norm does not grow, for any step size. -/
theorem C90_stable {r : Rhs K} (hk : Kinematic r) {A : Nat → Nat → K}
    (hlin : ∀ t x f, r.rhs t x = .ok f → ∀ i, i < 2 * r.n2 + r.n1 →
      f.getD i 0 = ∑ j ∈ Finset.range (2 * r.n2 + r.n1), A i j * x.getD j 0)
    (hdis : ∀ v : Nat → K, sprod (2 * r.n2 + r.n1)
      (fun i => ∑ j ∈ Finset.range (2 * r.n2 + r.n1), A i j * v j) v ≤ 0)
    {alpha h t0 : K} (hh : 0 ≤ h) (ha : 1 ≤ 2 * alpha) {X0 X1 : List K}
    (hX : Solves r alpha h t0 0 X0 X1) :
    sprod (2 * r.n2 + r.n1) (fun i => X1.getD i 0) (fun i => X1.getD i 0) ≤
      sprod (2 * r.n2 + r.n1) (fun i => X0.getD i 0) (fun i => X0.getD i 0) := by
  obtain ⟨f0, f1, a0, a1, a2⟩ := C35_all hk hX
  have hm := mul_nonpos_of_nonneg_of_nonpos hh
    (hdis (fun i => (1 - alpha) * X0.getD i 0 + alpha * X1.getD i 0))
  unfold sprod at hm ⊢
  rw [Finset.mul_sum] at hm
  have : ∑ i ∈ Finset.range (2 * r.n2 + r.n1), (X1.getD i 0 * X1.getD i 0 - X0.getD i 0 * X0.getD i 0) ≤
      2 * ∑ i ∈ Finset.range (2 * r.n2 + r.n1),
        h * ((∑ j ∈ Finset.range (2 * r.n2 + r.n1), A i j * ((1 - alpha) * X0.getD j 0 + alpha * X1.getD j 0)) *
          ((1 - alpha) * X0.getD i 0 + alpha * X1.getD i 0)) := by
    rw [Finset.mul_sum]
    refine Finset.sum_le_sum (fun i hi => ?_)
    have hi := Finset.mem_range.1 hi
    have e1 : ∑ j ∈ Finset.range (2 * r.n2 + r.n1), A i j * ((1 - alpha) * X0.getD j 0 + alpha * X1.getD j 0) =
        (1 - alpha) * f0.getD i 0 + alpha * f1.getD i 0 := by
      rw [hlin _ _ _ a0 i hi, hlin _ _ _ a1 i hi, Finset.mul_sum, Finset.mul_sum, ← Finset.sum_add_distrib]
      exact Finset.sum_congr rfl (fun j _ => by ring)
    have e2 := a2 i hi
    rw [e1]
    generalize (1 - alpha) * f0.getD i 0 + alpha * f1.getD i 0 = g at *
    rw [e2]
    nlinarith [mul_nonneg (sub_nonneg.2 ha) (sq_nonneg (h * g))]
  rw [Finset.sum_sub_distrib] at this
  linarith

end

section

/-- `x' = -x` -/
def exDecay : Rhs ℚ := ⟨0, 1, fun _ x => .ok [-x.getD 0 0]⟩

/-- Implicit Euler on it with the components of the library -/
def exEuler : IMethod (Dir ℚ) ℚ Unit where
  rhs _ := exDecay
  parts F := Alg.parts .simple F 1 8
  observers _ _ := .ok false
  limit := 100
  order := none
  predictor := none
  predictorSteps := 1
  ec := none

/-- A new solver at time 0, state 2, step 1 -/
def exSolver : ISolver (Dir ℚ) ℚ Unit where
  map := (EMap.new : EMap ℚ).setInitialState 0 [2]
  buf := []
  eqnbuf := []
  hard := true
  hInit := 1
  perf := ⟨[], [], false, 1, exEst, Dir.new (Prov.new .default)⟩
  ec := ()

/-- The hypotheses of `C35_step` are met, and the step is what the method says: 2 goes to 1. -/
example : ∃ s' tr, exSolver.doStep exEuler = .ok (s', tr) ∧ s'.map.x0 = [1] ∧ s'.map.t0 = 1 ∧
    Works (exEuler.rhs ()) ∧ (∀ F, (exEuler.parts F).F = F ∧ SimpleSearch (exEuler.parts F) 8) ∧
    0 ≤ exSolver.perf.est.absTol ∧ 0 ≤ exSolver.perf.est.relTol := by
  obtain ⟨p, h1, h2⟩ := Verif.Res.exists_of_test (r := exSolver.doStep exEuler)
    (p := fun p => decide (p.1.map.x0 = [1] ∧ p.1.map.t0 = 1)) (by decide +kernel)
  obtain ⟨h3, h4⟩ := of_decide_eq_true h2
  exact ⟨p.1, p.2, h1, h3, h4, fun t x _ => ⟨_, rfl, rfl⟩, fun F => ⟨rfl, fun _ _ _ _ => rfl⟩,
    by decide +kernel, by decide +kernel⟩

/-- The hypotheses of `C90_contractive` and `C90_stable` are met: 2 goes to 1, 4 goes to 2. -/
example : Kinematic exDecay ∧ Solves exDecay 1 1 0 0 [2] [1] ∧ Solves exDecay 1 1 0 0 [4] [2] := by
  refine ⟨fun _ _ _ _ i hi => absurd hi (Nat.not_lt_zero _), ⟨rfl, [-2], [-1], rfl, rfl, ?_, ?_⟩,
    ⟨rfl, [-4], [-2], rfl, rfl, ?_, ?_⟩⟩
  · intro i hi
    exact absurd hi (Nat.not_lt_zero _)
  · intro i _ hi
    obtain rfl : i = 0 := by simp [exDecay] at hi; omega
    norm_num
  · intro i hi
    exact absurd hi (Nat.not_lt_zero _)
  · intro i _ hi
    obtain rfl : i = 0 := by simp [exDecay] at hi; omega
    norm_num

/-- Below 1/2 there is no such property: with alpha 0 and step 3 the state 1 goes to -2. -/
example : Solves exDecay 0 3 0 0 [1] [-2] := by
  refine ⟨rfl, [-1], [2], rfl, by simp [exDecay], ?_, ?_⟩
  · intro i hi
    exact absurd hi (Nat.not_lt_zero _)
  · intro i _ hi
    obtain rfl : i = 0 := by simp [exDecay] at hi; omega
    norm_num

end

end Verif.Implicit
