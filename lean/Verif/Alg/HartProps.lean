import Verif.Alg.ProvProps

/-! # The descent direction with Hart's updates -/

namespace Verif.Alg

open Verif.Res Verif.Vec Verif.Sparse

set_option linter.unusedSectionVars false

section
variable {K : Type} [Field K] [DecidableEq K]

/-- A stencil for which solving and updating in the factorizer are exact -/
structure GoodStencil (n : Nat) (es : LU.Entries K) : Prop where
  stencil : LU.Stencil n es
  distinct : LU.Distinct es
  filled : LU.Filled es
  reach : LU.DiagReach n es

/-- Directions with Hart's updates after any sequence of calls at points and values of size `n`, each of which
returned; the Jacobians computed have stencils that suit the factorizer. The mappings and trimmers
may differ from call to call. -/
inductive HartUsed (n : Nat) (pk : ProvKind) : Dir K → Prop
  | new : HartUsed n pk (Dir.new (Prov.new pk))
  | reset {s : Dir K} (hard : Bool) : HartUsed n pk s → HartUsed n pk (s.reset .hart hard)
  | report {s : Dir K} (success : Bool) : HartUsed n pk s → HartUsed n pk (s.reportSuccess .hart success)
  | call {s s' : Dir K} {F : Mapping K} {dx : K} {trim : Trimmer K} {x0 f0 d : List K} {it : Nat} :
      HartUsed n pk s → x0.length = n → f0.length = n →
      s.direction .hart F dx trim x0 f0 it = .ok (s', d) → GoodStencil n s'.prov.J.data → HartUsed n pk s'

/-- The factorizer is new, or it has a history. -/
structure HartInv (n : Nat) (s : Dir K) : Prop where
  lu : s.lu.factorized = true → ∃ st0 es ops, GoodStencil n es ∧ (∀ o ∈ ops, LU.Op.Long n o) ∧
    LU.History st0 es ops s.lu
  prev : ∀ x f, s.prev = some (x, f) → x.length = n ∧ f.length = n ∧ s.lu.factorized = true

theorem history_snoc {st0 : LU.Fact K} {es : LU.Entries K} {ops : List (LU.Op K)} {st st' : LU.Fact K}
    (h : LU.History st0 es ops st) {o : LU.Op K} (ho : o.apply st = .ok st') : LU.History st0 es (ops ++ [o]) st' := by
  obtain ⟨st1, h1, h2⟩ := h
  refine ⟨st1, h1, ?_⟩
  rw [List.foldlM_append, h2]
  change ([o].foldlM LU.Op.apply st : Res _) = _
  rw [List.foldlM_cons, ho]
  rfl

theorem long_snoc {n : Nat} {ops : List (LU.Op K)} (h : ∀ o ∈ ops, LU.Op.Long n o) {o : LU.Op K} (ho : o.Long n) :
    ∀ o' ∈ ops ++ [o], LU.Op.Long n o' := by
  intro o' h'
  rcases List.mem_append.1 h' with h' | h'
  · exact h o' h'
  · rw [List.mem_singleton.1 h']
    exact ho

theorem vec_neg (x : List K) (n : Nat) : LU.vec (x.map (· * (-1))) n = - LU.vec x n := by
  funext i
  unfold LU.vec
  rw [Pi.neg_apply, List.getD_eq_getElem?_getD, List.getElem?_map, List.getD_eq_getElem?_getD]
  cases x[(i : Nat)]? <;> simp

theorem solveNeg_history {n : Nat} {st0 : LU.Fact K} {es : LU.Entries K} {ops : List (LU.Op K)} {st : LU.Fact K}
    (hg : GoodStencil n es) (hl : ∀ o ∈ ops, LU.Op.Long n o) (h : LU.History st0 es ops st) {f0 d : List K}
    (hf : n ≤ f0.length) {st' : LU.Fact K} (hs : solveNeg st f0 = .ok (st', d)) :
    st'.factorized = true ∧ (∃ ops', (∀ o ∈ ops', LU.Op.Long n o) ∧ LU.History st0 es ops' st') ∧
    ∃ A : Matrix (Fin n) (Fin n) K, LU.Represents st A ∧ LU.Represents st' A ∧
      A.mulVec (LU.vec d n) = fun i => - LU.vec f0 n i := by
  unfold solveNeg at hs
  cases e : LU.solve st f0 with
  | error _ => rw [e] at hs; cases hs
  | ok r =>
    rw [e, bind_ok] at hs
    cases hs
    obtain ⟨A, h1, h2, h3⟩ := LU.C01_history_partial st0 es hg.stencil hg.distinct hg.filled ops hl h f0 hf e
    refine ⟨(LU.C03_solve_keeps st0 es hg.stencil hg.distinct ops hl h f0 hf e).1,
      ⟨ops ++ [.solve f0], long_snoc hl (o := .solve f0) hf, history_snoc h ?_⟩, A, h1, h2, ?_⟩
    · unfold LU.Op.apply
      dsimp only
      rw [e]
      rfl
    · rw [vec_neg, Matrix.mulVec_neg, h3]
      rfl

/-- What a call does, by cases -/
theorem hart_call {n : Nat} {s s' : Dir K} (h : HartInv n s) {F : Mapping K} {dx : K} {trim : Trimmer K}
    {x0 f0 d : List K} (hx : x0.length = n) (hf : f0.length = n)
    (hc : s.hart F dx trim x0 f0 = .ok (s', d)) (hg : GoodStencil n s'.prov.J.data) :
    HartInv n s' ∧ s'.prev = some (x0, f0) ∧ s'.lu.factorized = true ∧
    (s.lu.factorized = false → s.prov.compute F dx trim x0 = .ok s'.prov ∧
      LU.Represents s'.lu (LU.matrixOf s'.prov.J.data n) ∧
      (LU.matrixOf s'.prov.J.data n).mulVec (LU.vec d n) = fun i => - LU.vec f0 n i) ∧
    (s.lu.factorized = true → s'.prov = s.prov ∧
      ∃ A : Matrix (Fin n) (Fin n) K, LU.Represents s'.lu A ∧ A.mulVec (LU.vec d n) = (fun i => - LU.vec f0 n i) ∧
        (s.prev = none → LU.Represents s.lu A) ∧
        ∀ x f, s.prev = some (x, f) → A.mulVec (fun i => LU.vec x0 n i - LU.vec x n i) =
          fun i => LU.vec f0 n i - LU.vec f n i) := by
  unfold Dir.hart at hc
  by_cases hz : s.lu.factorized = true
  · rw [if_pos hz] at hc
    obtain ⟨st0, es, ops, g, hl, hh⟩ := h.lu hz
    cases hp : s.prev with
    | none =>
      rw [hp] at hc
      simp only [bind_ok] at hc
      cases e : solveNeg s.lu f0 with
      | error _ => rw [e] at hc; cases hc
      | ok r =>
        rw [e, bind_ok] at hc
        cases hc
        obtain ⟨k1, ⟨ops', k2, k3⟩, A, k4, k5, k6⟩ := solveNeg_history g hl hh hf.ge e
        refine ⟨⟨fun _ => ⟨st0, es, ops', g, k2, k3⟩, ?_⟩, rfl, k1, fun h => ?_, fun _ =>
          ⟨rfl, A, k5, k6, fun _ => k4, fun _ _ h => by cases h⟩⟩
        · rintro x f e
          cases e
          exact ⟨hx, hf, k1⟩
        · rw [hz] at h
          cases h
    | some pr =>
      obtain ⟨x, f⟩ := pr
      obtain ⟨p1, p2, -⟩ := h.prev x f hp
      rw [hp] at hc
      simp only at hc
      obtain ⟨dx', v1, v2, v3⟩ := vsub_ok (a := x0) (b := x) (by omega)
      obtain ⟨df', w1, w2, w3⟩ := vsub_ok (a := f0) (b := f) (by omega)
      rw [v1, w1] at hc
      simp only [bind_ok] at hc
      cases e1 : LU.secantUpdateHart s.lu dx' df' with
      | error _ => rw [e1] at hc; cases hc
      | ok lu =>
        rw [e1] at hc
        simp only [bind_ok] at hc
        cases e : solveNeg lu f0 with
        | error _ => rw [e] at hc; cases hc
        | ok r =>
          rw [e, bind_ok] at hc
          cases hc
          have l1 : n ≤ dx'.length := by omega
          have l2 : n ≤ df'.length := by omega
          obtain ⟨-, -, -, A, a1, a2⟩ := LU.C06_secant_partial st0 es g.stencil g.distinct g.filled g.reach ops hl hh
            _ _ l1 l2 e1
          obtain ⟨k1, ⟨ops', k2, k3⟩, A', k4, k5, k6⟩ := solveNeg_history g (long_snoc hl (o := .hart _ _) ⟨l1, l2⟩)
            (history_snoc hh (o := .hart _ _) e1) hf.ge e
          have hA : A' = A := by
            funext i j
            have := (k4 i j).symm.trans (a1 i j)
            exact Except.ok.inj this
          subst hA
          refine ⟨⟨fun _ => ⟨st0, es, ops', g, k2, k3⟩, ?_⟩, rfl, k1, fun h => ?_, fun _ =>
            ⟨rfl, A', k5, k6, (fun h => by cases h), ?_⟩⟩
          · rintro x f e
            cases e
            exact ⟨hx, hf, k1⟩
          · rw [hz] at h
            cases h
          · rintro x' f' h
            cases h
            have e1 : LU.vec dx' n = fun i => LU.vec x0 n i - LU.vec x n i := by
              funext i
              exact v3 i (by omega)
            have e2 : LU.vec df' n = fun i => LU.vec f0 n i - LU.vec f n i := by
              funext i
              exact w3 i (by omega)
            rw [e1, e2] at a2
            exact a2
  · rw [if_neg hz] at hc
    cases e1 : s.prov.compute F dx trim x0 with
    | error _ => rw [e1] at hc; cases hc
    | ok prov =>
      rw [e1, bind_ok] at hc
      cases e2 : LU.setMatrix s.lu prov.J.data with
      | error _ => rw [e2] at hc; cases hc
      | ok lu =>
        rw [e2] at hc
        simp only [bind_ok] at hc
        cases e : solveNeg lu f0 with
        | error _ => rw [e] at hc; cases hc
        | ok r =>
          rw [e, bind_ok] at hc
          cases hc
          have hh : LU.History s.lu prov.J.data [] lu := ⟨lu, e2, rfl⟩
          obtain ⟨k1, ⟨ops', k2, k3⟩, A', k4, k5, k6⟩ := solveNeg_history hg (by simp) hh hf.ge e
          obtain ⟨st', r1, -, -, r2⟩ := LU.C02_readback s.lu prov.J.data hg.stencil hg.distinct
          rw [e2] at r1
          cases r1
          have hA : A' = LU.matrixOf prov.J.data n := by
            funext i j
            exact Except.ok.inj ((k4 i j).symm.trans (r2 i j))
          subst hA
          refine ⟨⟨fun _ => ⟨s.lu, prov.J.data, ops', hg, k2, k3⟩, ?_⟩, rfl, k1, fun _ => ⟨rfl, k5, k6⟩,
            fun h => absurd h hz⟩
          rintro x f e
          cases e
          exact ⟨hx, hf, k1⟩

theorem hart_inv {n : Nat} {pk : ProvKind} {s : Dir K} (h : HartUsed n pk s) : HartInv n s := by
  induction h with
  | new =>
    refine ⟨fun h => ?_, fun _ _ h => by cases h⟩
    unfold Dir.new LU.Fact.empty at h
    cases h
  | @reset s hard _ ih =>
    unfold Dir.reset
    cases hard with
    | true =>
      refine ⟨fun h => ?_, fun _ _ h => by cases h⟩
      unfold LU.Fact.empty at h
      cases h
    | false => exact ⟨ih.lu, fun _ _ h => by cases h⟩
  | report success _ ih => exact ih
  | call _ hx hf hc hg ih => exact (hart_call ih hx hf hc hg).1

/-- C112: the first direction after construction or a hard reset is the Newton direction of the Jacobian computed at
this point, which the factorizer then holds. -/
theorem C112_first {n : Nat} {pk : ProvKind} {s s' : Dir K} (h : HartUsed n pk s) {F : Mapping K} {dx : K}
    {trim : Trimmer K} {x0 f0 d : List K} {it : Nat} (hx : x0.length = n) (hf : f0.length = n)
    (hs : s = Dir.new (Prov.new pk) ∨ ∃ t : Dir K, s = t.reset .hart true)
    (hc : s.direction .hart F dx trim x0 f0 it = .ok (s', d)) (hg : GoodStencil n s'.prov.J.data) :
    s.prov.compute F dx trim x0 = .ok s'.prov ∧ LU.Represents s'.lu (LU.matrixOf s'.prov.J.data n) ∧
      (LU.matrixOf s'.prov.J.data n).mulVec (LU.vec d n) = fun i => - LU.vec f0 n i := by
  refine (hart_call (hart_inv h) hx hf hc hg).2.2.2.1 ?_
  rcases hs with rfl | ⟨t, rfl⟩
  · unfold Dir.new LU.Fact.empty
    rfl
  · unfold Dir.reset LU.Fact.empty
    rfl

/-- C112 (`_partial`: needs stencils that suit the factorizer, see `C112_false`): a direction computed right after
another one solves the system of a matrix that maps the step made to the change of the residual; it is the matrix
which the factorizer represents. The Jacobian of the provider stays as it is. -/
theorem C112_secant_partial {n : Nat} {pk : ProvKind} {s s' t' : Dir K} (h : HartUsed n pk s) {F G : Mapping K} {dx dy : K}
    {trim trim' : Trimmer K} {x f d x0 f0 d0 : List K} {it jt : Nat} (hx : x.length = n) (hf : f.length = n)
    (hc : s.direction .hart F dx trim x f it = .ok (s', d)) (hg : GoodStencil n s'.prov.J.data)
    (hx0 : x0.length = n) (hf0 : f0.length = n)
    (hc0 : s'.direction .hart G dy trim' x0 f0 jt = .ok (t', d0)) :
    t'.prov = s'.prov ∧ ∃ A : Matrix (Fin n) (Fin n) K, LU.Represents t'.lu A ∧
      A.mulVec (LU.vec d0 n) = (fun i => - LU.vec f0 n i) ∧
      A.mulVec (fun i => LU.vec x0 n i - LU.vec x n i) = fun i => LU.vec f0 n i - LU.vec f n i := by
  obtain ⟨h1, h2, h3, -⟩ := hart_call (hart_inv h) hx hf hc hg
  have hprov : t'.prov = s'.prov := by
    unfold Dir.direction Dir.hart at hc0
    simp only [h3, h2, if_true] at hc0
    obtain ⟨u, e1, hc0⟩ := bind_inv hc0
    obtain ⟨r, e2, hc0⟩ := bind_inv hc0
    cases hc0
    obtain ⟨a, -, e1⟩ := bind_inv e1
    obtain ⟨b, -, e1⟩ := bind_inv e1
    obtain ⟨c, -, e1⟩ := bind_inv e1
    cases e1
    rfl
  obtain ⟨-, A, a1, a2, -, a3⟩ := (hart_call h1 hx0 hf0 hc0 (by rw [hprov]; exact hg)).2.2.2.2 h3
  exact ⟨hprov, A, a1, a2, a3 x f h2⟩

/-- C112: a direction computed right after a soft reset uses the matrix of the former direction, without an update. -/
theorem C112_soft {n : Nat} {pk : ProvKind} {s s' t' : Dir K} (h : HartUsed n pk s) {F G : Mapping K} {dx dy : K}
    {trim trim' : Trimmer K} {x f d x0 f0 d0 : List K} {it jt : Nat} (hx : x.length = n) (hf : f.length = n)
    (hc : s.direction .hart F dx trim x f it = .ok (s', d)) (hg : GoodStencil n s'.prov.J.data)
    (hx0 : x0.length = n) (hf0 : f0.length = n)
    (hc0 : (s'.reset .hart false).direction .hart G dy trim' x0 f0 jt = .ok (t', d0)) :
    ∃ A : Matrix (Fin n) (Fin n) K, LU.Represents s'.lu A ∧ LU.Represents t'.lu A ∧
      A.mulVec (LU.vec d n) = (fun i => - LU.vec f n i) ∧ A.mulVec (LU.vec d0 n) = fun i => - LU.vec f0 n i := by
  have hu := HartUsed.call h hx hf hc hg
  obtain ⟨h1, h2, h3, h4, h5⟩ := hart_call (hart_inv h) hx hf hc hg
  have hprov : t'.prov = s'.prov := by
    have h3' : (s'.reset .hart false).lu.factorized = true := h3
    unfold Dir.direction Dir.hart at hc0
    simp only [h3', if_true] at hc0
    unfold Dir.reset at hc0
    simp only [bind_ok] at hc0
    obtain ⟨r, e2, hc0⟩ := bind_inv hc0
    cases hc0
    rfl
  obtain ⟨-, A, a1, a2, a3, -⟩ := (hart_call (hart_inv (hu.reset false)) hx0 hf0 hc0 (by rw [hprov]; exact hg)).2.2.2.2 h3
  have a3 : LU.Represents s'.lu A := a3 rfl
  refine ⟨A, a3, a1, ?_, a2⟩
  by_cases hz : s.lu.factorized = true
  · obtain ⟨-, B, b1, b2, -⟩ := h5 hz
    have : B = A := by
      funext i j
      exact Except.ok.inj ((b1 i j).symm.trans (a3 i j))
    rw [← this]
    exact b2
  · obtain ⟨-, b1, b2⟩ := h4 (by simpa using hz)
    have : LU.matrixOf s'.prov.J.data n = A := by
      funext i j
      exact Except.ok.inj ((b1 i j).symm.trans (a3 i j))
    rw [← this]
    exact b2

end

/-! ### Concrete cases and a counterexample -/

/-- `(x0² + x1 - 3, x0 + x1² - 5)` -/
def exQuad : Mapping ℚ := ⟨2, 2, fun x => do
  let a ← at' x 0
  let b ← at' x 1
  .ok [a * a + b - 3, a + b * b - 5]⟩

/-- The hypotheses of the theorems above are met: two directions one after the other. -/
example : ∃ s' d t' d0, (Dir.new (Prov.new .default)).direction .hart exQuad 1 none [2, 0] [1, -3] 0 = .ok (s', d) ∧
    GoodStencil 2 s'.prov.J.data ∧ s'.direction .hart exQuad 1 none [1, 1] [-1, -3] 1 = .ok (t', d0) ∧
    exQuad.map [2, 0] = .ok [1, -3] ∧ exQuad.map [1, 1] = .ok [-1, -3] := by
  obtain ⟨⟨s', d⟩, h1, h2⟩ := Verif.Res.exists_of_test
    (r := (Dir.new (Prov.new .default)).direction .hart exQuad 1 none [2, 0] [1, -3] 0)
    (p := fun s => (match s.1.direction .hart exQuad 1 none [1, 1] [-1, -3] 1 with
      | .ok _ => true
      | .error _ => false) && decide (s.1.prov.J.data = [((0, 0), 5), ((0, 1), 1), ((1, 0), 1), ((1, 1), 1)])) (by decide +kernel)
  obtain ⟨h2, h3⟩ := Bool.and_eq_true_iff.1 h2
  have h3 : s'.prov.J.data = _ := of_decide_eq_true h3
  split at h2
  · rename_i r e
    refine ⟨s', d, r.1, r.2, h1, ?_, e, by decide +kernel, by decide +kernel⟩
    rw [h3]
    have hk : ∀ r c, LU.Key ([((0, 0), 5), ((0, 1), 1), ((1, 0), 1), ((1, 1), 1)] : LU.Entries ℚ) r c ↔ r < 2 ∧ c < 2 := by
      intro r c
      simp only [LU.key_iff, List.map_cons, List.map_nil, List.mem_cons, List.not_mem_nil, or_false, Prod.mk.injEq]
      omega
    exact ⟨⟨fun r c h => (hk r c).1 h, fun i hi => ⟨0, by omega, (hk _ _).2 ⟨hi, by omega⟩⟩,
      fun i hi => ⟨0, by omega, (hk _ _).2 ⟨by omega, hi⟩⟩⟩, by unfold LU.Distinct; decide,
      fun r c h ⟨r', h1, h2⟩ => ⟨c, le_refl _, (hk _ _).2 ⟨by have := (hk _ _).1 h2; omega, ((hk _ _).1 h2).2⟩⟩,
      fun i hi => ⟨i, le_refl _, (hk _ _).2 ⟨hi, hi⟩⟩⟩
  · cases h2

/-- `(x0 + x2, x0 + x1, x1² + x2)` -/
def exHole : Mapping ℚ := ⟨3, 3, fun x => do
  let a ← at' x 0
  let b ← at' x 1
  let c ← at' x 2
  .ok [a + c, a + b, b * b + c]⟩

/-- C112 is false if the stencil of the Jacobian violates the fill condition of the factorizer: after a full step
along the first direction the matrix of the second one does not map the step to the change of the residual. -/
theorem C112_false : ∃ s' d t' d0,
    (Dir.new (Prov.new .default)).direction .hart exHole 1 none [1, 1, 1] [2, 2, 2] 0 = .ok (s', d) ∧
    LU.Stencil 3 s'.prov.J.data ∧ LU.Distinct s'.prov.J.data ∧ LU.DiagReach 3 s'.prov.J.data ∧
    List.zipWith (· + ·) [1, 1, 1] d = [-1 / 2, 1, 1 / 2] ∧
    s'.direction .hart exHole 1 none [-1 / 2, 1, 1 / 2] [0, 1 / 2, 3 / 2] 1 = .ok (t', d0) ∧
    exHole.map [1, 1, 1] = .ok [2, 2, 2] ∧ exHole.map [-1 / 2, 1, 1 / 2] = .ok [0, 1 / 2, 3 / 2] ∧
    ∀ A : Matrix (Fin 3) (Fin 3) ℚ, LU.Represents t'.lu A →
      A.mulVec (fun i => LU.vec [-1 / 2, 1, 1 / 2] 3 i - LU.vec [1, 1, 1] 3 i) ≠
        fun i => LU.vec [0, 1 / 2, 3 / 2] 3 i - LU.vec [2, 2, 2] 3 i := by
  obtain ⟨⟨s', d⟩, h1, h2⟩ := Verif.Res.exists_of_test
    (r := (Dir.new (Prov.new .default)).direction .hart exHole 1 none [1, 1, 1] [2, 2, 2] 0)
    (p := fun s => (match s.1.direction .hart exHole 1 none [-1 / 2, 1, 1 / 2] [0, 1 / 2, 3 / 2] 1 with
      | .ok t => (match LU.elementAt t.1.lu 1 0, LU.elementAt t.1.lu 1 1, LU.elementAt t.1.lu 1 2 with
        | .ok a, .ok b, .ok c => decide (a = 3 / 4 ∧ b = 1 ∧ c = -1 / 4)
        | _, _, _ => false)
      | .error _ => false) && decide (s.2 = [-3 / 2, 0, -1 / 2] ∧ s.1.prov.J.data =
        [((0, 0), 1), ((0, 2), 1), ((1, 0), 1), ((1, 1), 1), ((2, 1), 3), ((2, 2), 1)])) (by decide +kernel)
  obtain ⟨h2, h3⟩ := Bool.and_eq_true_iff.1 h2
  obtain ⟨h3, h4⟩ := of_decide_eq_true h3
  dsimp only at h3 h4
  split at h2
  · rename_i t e
    split at h2
    · rename_i a b c e0 e1 e2
      obtain ⟨ha, hb, hc⟩ := of_decide_eq_true h2
      refine ⟨s', d, t.1, t.2, h1, ?_, ?_, ?_, by rw [h3]; decide +kernel, e, by decide +kernel, by decide +kernel, ?_⟩
      · rw [h4]
        refine LU.stencil_of ⟨by decide, ?_, ?_⟩
        · intro i hi; interval_cases i
          exacts [⟨0, by decide⟩, ⟨0, by decide⟩, ⟨1, by decide⟩]
        · intro i hi; interval_cases i
          exacts [⟨0, by decide⟩, ⟨1, by decide⟩, ⟨0, by decide⟩]
      · rw [h4]
        unfold LU.Distinct
        decide
      · rw [h4]
        intro i hi
        simp only [LU.key_iff]
        interval_cases i
        exacts [⟨0, by decide⟩, ⟨1, by decide⟩, ⟨2, by decide⟩]
      · intro A hA hcon
        have f0 := (hA 1 0).symm.trans e0
        have f1 := (hA 1 1).symm.trans e1
        have f2 := (hA 1 2).symm.trans e2
        have g0 := Except.ok.inj f0
        have g1 := Except.ok.inj f1
        have g2 := Except.ok.inj f2
        have h5 := congrFun hcon 1
        simp [Matrix.mulVec, dotProduct, Fin.sum_univ_three, LU.vec, g0, g1, g2, ha, hb, hc] at h5
        norm_num at h5
    · cases h2
  · cases h2

end Verif.Alg
