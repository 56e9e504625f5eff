import Verif.Alg.HartProps

/-! # The lazy descent direction with stencil-preserving updates -/

namespace Verif.Alg

open Verif.Res Verif.Vec Verif.Sparse

set_option linter.unusedSectionVars false

section
variable {K : Type} [Field K] [DecidableEq K]

/-- The change of the accumulated matrix in a call that does not compute a Jacobian -/
def Accumulates (x0 f0 : List K) (s : Dir K) (dJ : FMat K) : Prop :=
  match s.prev with
  | none => dJ = s.dJ
  | some pr => ∃ dxv df left data, vsub x0 pr.1 = .ok dxv ∧ vsub f0 pr.2 = .ok df ∧
      updateLeft s.prov.J dxv df = .ok left ∧ addOuter left dxv s.dJ.data = .ok data ∧
      dJ = { s.dJ with data := data }

/-- The three parts of a call -/
theorem lazy_inv {F : Mapping K} {dx : K} {trim : Trimmer K} {x0 f0 d : List K} {it : Nat} {s s' : Dir K}
    (h : s.lazy F dx trim x0 f0 it = .ok (s', d)) :
    ∃ s1 : Dir K, ((it = 0 ∧ (s.prov.J.data = [] ∨ s.action = .recompute) ∧ ∃ prov lu,
        s.prov.compute F dx trim x0 = .ok prov ∧ setOrFast s.lu prov.J = .ok lu ∧
        s1 = { s with lastIter := it, prov := prov, dJ := prov.J.makeZero, lu := lu }) ∨
      (¬ (it = 0 ∧ (s.prov.J.data = [] ∨ s.action = .recompute)) ∧ ∃ dJ, Accumulates x0 f0 s dJ ∧
        s1 = { s with lastIter := it, dJ := dJ })) ∧
    ∃ s2 : Dir K, ((it = 0 ∧ s.action = .update ∧ ∃ J lu, addFast s1.prov.J s1.dJ = .ok J ∧
        LU.setMatrixFast s1.lu J.data = .ok lu ∧
        s2 = { s1 with prov := { s1.prov with J := J }, dJ := s1.dJ.makeZero, lu := lu }) ∨
      (¬ (it = 0 ∧ s.action = .update) ∧ s2 = s1)) ∧
    ∃ lu, solveNeg s2.lu f0 = .ok (lu, d) ∧ s' = { s2 with lu := lu, prev := some (x0, f0) } := by
  unfold Dir.lazy at h
  dsimp only at h
  obtain ⟨s1, h1, h⟩ := bind_inv h
  obtain ⟨s2, h2, h⟩ := bind_inv h
  obtain ⟨r, h3, h⟩ := bind_inv h
  cases h
  have hact : s1.action = s.action := by
    split at h1
    · obtain ⟨_, -, h1⟩ := bind_inv h1
      obtain ⟨_, -, h1⟩ := bind_inv h1
      cases h1
      rfl
    · split at h1
      · cases h1; rfl
      · obtain ⟨_, -, h1⟩ := bind_inv h1
        obtain ⟨_, -, h1⟩ := bind_inv h1
        obtain ⟨_, -, h1⟩ := bind_inv h1
        obtain ⟨_, -, h1⟩ := bind_inv h1
        cases h1
        rfl
  refine ⟨s1, ?_, s2, ?_, r.1, h3, rfl⟩
  · split at h1
    · rename_i hc
      obtain ⟨prov, e1, h1⟩ := bind_inv h1
      obtain ⟨lu, e2, h1⟩ := bind_inv h1
      cases h1
      refine Or.inl ⟨hc.1, hc.2.imp (fun h => List.isEmpty_iff.1 h) id, prov, lu, e1, e2, rfl⟩
    · rename_i hc
      refine Or.inr ⟨fun hn => hc ⟨hn.1, hn.2.imp (fun h => List.isEmpty_iff.2 h) id⟩, ?_⟩
      unfold Accumulates
      split at h1
      · rename_i e
        cases h1
        exact ⟨s.dJ, by rw [e], rfl⟩
      · rename_i pr e
        obtain ⟨dxv, e1, h1⟩ := bind_inv h1
        obtain ⟨df, e2, h1⟩ := bind_inv h1
        obtain ⟨left, e3, h1⟩ := bind_inv h1
        obtain ⟨data, e4, h1⟩ := bind_inv h1
        cases h1
        refine ⟨_, ?_, rfl⟩
        rw [e]
        exact ⟨dxv, df, left, data, e1, e2, e3, e4, rfl⟩
  · split at h2
    · rename_i hc
      obtain ⟨J, e1, h2⟩ := bind_inv h2
      obtain ⟨lu, e2, h2⟩ := bind_inv h2
      cases h2
      exact Or.inl ⟨hc.1, hact ▸ hc.2, J, lu, e1, e2, rfl⟩
    · rename_i hc
      cases h2
      exact Or.inr ⟨fun hn => hc ⟨hn.1, hact ▸ hn.2⟩, rfl⟩

/-! ### Adding one matrix to another one -/

theorem fold_fastAdd (es d : Fast K) (hd : Increasing d) (he : Increasing es) {d' : Fast K}
    (h : es.foldlM (fun d e => fastAdd d e.1 e.2) d = (.ok d' : Res _)) :
    d'.map Prod.fst = d.map Prod.fst ∧ Increasing d' ∧
      ∀ k, Data.find d' k = (Data.find d k).map (· + (Data.find es k).getD 0) := by
  induction es generalizing d with
  | nil =>
    cases h
    refine ⟨rfl, hd, fun k => ?_⟩
    rw [show Data.find ([] : Fast K) k = none from rfl]
    cases Data.find d' k <;> simp
  | cons e es ih =>
    rw [List.foldlM_cons] at h
    rw [Sparse.inc_cons] at he
    cases hf : Data.find d e.1 with
    | none =>
      rw [fastAdd_none hd hf] at h
      cases h
    | some v =>
      obtain ⟨d1, e1, e2, e3, e4⟩ := fastAdd_some hd (x := e.2) hf
      rw [e1, bind_ok] at h
      obtain ⟨g1, g2, g3⟩ := ih d1 e3 he.2 h
      refine ⟨g1.trans e2, g2, fun k => ?_⟩
      rw [g3, e4]
      have hc : Data.find (e :: es) k = if e.1 = k then some e.2 else Data.find es k := by
        unfold Data.find
        rw [List.find?_cons]
        by_cases hk : e.1 = k
        · simp [hk]
        · rw [if_neg hk, beq_false_of_ne hk]
      rw [hc]
      by_cases hk : k = e.1
      · subst hk
        have : Data.find es e.1 = none := by
          rw [Data.find_none_iff]
          intro x hx hk
          exact ltI_ne (he.1 x hx) hk.symm
        rw [if_pos rfl, if_pos rfl, this, hf]
        simp
      · rw [if_neg hk, if_neg (fun h => hk h.symm)]

/-! ### The system that is solved -/

/-- Lazy directions after any sequence of calls, each of which returned and left a Jacobian with exactly the positions
`S`; the first call after construction or a reset has iteration number 0, and success is only reported after calls. -/
inductive LazyUsed (m n : Nat) (S : Nat → Nat → Prop) (pk : ProvKind) : Dir K → Prop
  | new : LazyUsed m n S pk (Dir.new (Prov.new pk))
  | reset {s : Dir K} (hard : Bool) : LazyUsed m n S pk s → LazyUsed m n S pk (s.reset (.lazy m) hard)
  | report {s : Dir K} (success : Bool) : LazyUsed m n S pk s → (success = true → s.prev ≠ none) →
      LazyUsed m n S pk (s.reportSuccess (.lazy m) success)
  | call {s s' : Dir K} {F : Mapping K} {dx : K} {trim : Trimmer K} {x0 f0 d : List K} {it : Nat} :
      LazyUsed m n S pk s → n ≤ f0.length → (it = 0 ∨ s.prev ≠ none) →
      s.direction (.lazy m) F dx trim x0 f0 it = .ok (s', d) →
      LU.Stencil n s'.prov.J.data → LU.Distinct s'.prov.J.data →
      (∀ r c, LU.Key s'.prov.J.data r c ↔ S r c) → LazyUsed m n S pk s'

/-- Nothing is known yet, or the factorizer holds the Jacobian of the provider. -/
def LazyInv (n : Nat) (S : Nat → Nat → Prop) (s : Dir K) : Prop :=
  (s.lu.p = [] ∧ s.lu.factorized = false ∧ s.action = .recompute ∧ s.prev = none) ∨
  ∃ hS : LU.Stencil n s.prov.J.data, LU.Able hS s.lu ∧ LU.Distinct s.prov.J.data ∧
    ∀ r c, LU.Key s.prov.J.data r c ↔ S r c

theorem LazyInv.luOk {n : Nat} {S : Nat → Nat → Prop} {s : Dir K} (h : LazyInv n S s) : LuOk n S s :=
  h.imp (fun h => ⟨h.1, h.2.1⟩) id

theorem lazy_call {m n : Nat} (hn : 0 < n) {S : Nat → Nat → Prop} {s s' : Dir K} (h : LazyInv n S s) {F : Mapping K}
    {dx : K} {trim : Trimmer K} {x0 f0 d : List K} {it : Nat} (hl : n ≤ f0.length) (hit : it = 0 ∨ s.prev ≠ none)
    (hc : s.direction (.lazy m) F dx trim x0 f0 it = .ok (s', d))
    (hS : LU.Stencil n s'.prov.J.data) (hd : LU.Distinct s'.prov.J.data)
    (hk : ∀ r c, LU.Key s'.prov.J.data r c ↔ S r c) :
    LazyInv n S s' ∧ (LU.Filled s'.prov.J.data →
      (LU.matrixOf s'.prov.J.data n).mulVec (LU.vec d n) = fun i => - LU.vec f0 n i) := by
  obtain ⟨s1, h1, s2, h2, lu, h3, rfl⟩ := lazy_inv hc
  have key : LU.Able hS s2.lu := by
    rcases h1 with ⟨e0, e1, prov, lu1, e2, e3, rfl⟩ | ⟨e0, dJ, e1, rfl⟩
    · rcases h2 with ⟨-, g1, -⟩ | ⟨-, rfl⟩
      · -- a Jacobian without elements
        exfalso
        have hJ : s.prov.J.data = [] := e1.resolve_right (by rw [g1]; simp)
        rcases h with h | ⟨hS0, -⟩
        · rw [h.2.2.1] at g1
          cases g1
        · obtain ⟨c, -, v, hv⟩ := hS0.row 0 hn
          rw [hJ] at hv
          cases hv
      · exact setOrFast_able h.luOk hS hd hk e3
    · rcases h with h | ⟨hS0, a1, a2, a3⟩
      · exfalso
        refine e0 ⟨hit.resolve_right (by rw [h.2.2.2]; simp), Or.inr h.2.2.1⟩
      · rcases h2 with ⟨-, -, J, lu2, g1, g2, rfl⟩ | ⟨-, rfl⟩
        · rw [LU.able_fast hS0 a1 J.data hd (fun r c => (hk r c).trans (a3 r c).symm)] at g2
          exact LU.able_set hS hd g2
        · exact a1
  obtain ⟨k1, k2⟩ := solveNeg_able hS key hl h3
  exact ⟨Or.inr ⟨hS, k1, hd, hk⟩, k2⟩

theorem lazy_used {m n : Nat} (hn : 0 < n) {S : Nat → Nat → Prop} {pk : ProvKind} {s : Dir K}
    (h : LazyUsed m n S pk s) : LazyInv n S s := by
  induction h with
  | new => exact Or.inl ⟨rfl, rfl, rfl, rfl⟩
  | @reset s hard _ ih =>
    unfold Dir.reset
    cases hard with
    | true => exact Or.inl ⟨rfl, rfl, rfl, rfl⟩
    | false => exact ih.imp (fun h => ⟨h.1, h.2.1, h.2.2.1, rfl⟩) id
  | @report s success _ hs ih =>
    unfold Dir.reportSuccess
    cases success with
    | true => exact ih.imp (fun h => absurd h.2.2.2 (hs rfl)) id
    | false => exact ih.imp (fun h => ⟨h.1, h.2.1, rfl, h.2.2.2⟩) id
  | call _ hl hit hc hS hd hk ih => exact (lazy_call hn ih hl hit hc hS hd hk).1

/-- C86 for the lazy direction (`_partial`: all Jacobians have the same stencil, which satisfies the fill condition, and
the first call after a reset has iteration number 0; false otherwise, see `C86_false` and `C86_lazy_false`): the
direction returned solves the linear system with the Jacobian the provider holds after the call. -/
theorem C86_lazy_partial {m n : Nat} (hn : 0 < n) {S : Nat → Nat → Prop} {pk : ProvKind} {s s' : Dir K}
    (h : LazyUsed m n S pk s) {F : Mapping K} {dx : K} {trim : Trimmer K} {x0 f0 d : List K} {it : Nat}
    (hl : n ≤ f0.length) (hit : it = 0 ∨ s.prev ≠ none)
    (hc : s.direction (.lazy m) F dx trim x0 f0 it = .ok (s', d))
    (hS : LU.Stencil n s'.prov.J.data) (hd : LU.Distinct s'.prov.J.data)
    (hk : ∀ r c, LU.Key s'.prov.J.data r c ↔ S r c) (hf : LU.Filled s'.prov.J.data) :
    (LU.matrixOf s'.prov.J.data n).mulVec (LU.vec d n) = fun i => - LU.vec f0 n i :=
  (lazy_call hn (lazy_used hn h) hl hit hc hS hd hk).2 hf

/-! ### Which Jacobian is used -/

/-- C113: in a new object, after a hard reset and after a failure the first iteration of a run computes the Jacobian. -/
theorem C113_recompute {m : Nat} {s s' : Dir K} {F : Mapping K} {dx : K} {trim : Trimmer K} {x0 f0 d : List K}
    (hs : (∃ pk, s = Dir.new (Prov.new pk)) ∨ (∃ t : Dir K, s = t.reset (.lazy m) true) ∨
      ∃ t : Dir K, s = (t.reportSuccess (.lazy m) false).reset (.lazy m) false)
    (hc : s.direction (.lazy m) F dx trim x0 f0 0 = .ok (s', d)) :
    s.prov.compute F dx trim x0 = .ok s'.prov := by
  have ha : s.action = .recompute := by
    rcases hs with ⟨pk, rfl⟩ | ⟨t, rfl⟩ | ⟨t, rfl⟩ <;> rfl
  obtain ⟨s1, h1, s2, h2, lu, h3, rfl⟩ := lazy_inv hc
  rcases h2 with ⟨-, g1, -⟩ | ⟨-, rfl⟩
  · rw [ha] at g1
    cases g1
  · rcases h1 with ⟨e0, e1, prov, lu1, e2, e3, rfl⟩ | ⟨e0, -⟩
    · exact e2
    · exact absurd ⟨rfl, Or.inr ha⟩ e0

/-- C113: no later iteration changes the Jacobian. -/
theorem C113_later {m : Nat} {s s' : Dir K} {F : Mapping K} {dx : K} {trim : Trimmer K} {x0 f0 d : List K} {it : Nat}
    (hit : it ≠ 0) (hc : s.direction (.lazy m) F dx trim x0 f0 it = .ok (s', d)) :
    s'.prov = s.prov ∧ s'.lastIter = it := by
  obtain ⟨s1, h1, s2, h2, lu, h3, rfl⟩ := lazy_inv hc
  rcases h1 with ⟨e0, -⟩ | ⟨-, dJ, -, rfl⟩
  · exact absurd e0 hit
  · rcases h2 with ⟨g0, -⟩ | ⟨-, rfl⟩
    · exact absurd g0 hit
    · exact ⟨rfl, rfl⟩

/-- C113: after a successful run of at most `lazy_iterations` iterations the Jacobian is left as it is. -/
theorem C113_leave {m : Nat} {s s' : Dir K} {F : Mapping K} {dx : K} {trim : Trimmer K} {x0 f0 d : List K}
    (hm : s.lastIter + 1 ≤ m) (hJ : s.prov.J.data ≠ [])
    (hc : ((s.reportSuccess (.lazy m) true).reset (.lazy m) false).direction (.lazy m) F dx trim x0 f0 0 = .ok (s', d)) :
    s'.prov = s.prov := by
  obtain ⟨s1, h1, s2, h2, lu, h3, rfl⟩ := lazy_inv hc
  have ha : ((s.reportSuccess (.lazy m) true).reset (.lazy m) false).action = .leave := by
    unfold Dir.reset Dir.reportSuccess
    simp [hm]
  rcases h1 with ⟨-, e0, -⟩ | ⟨-, dJ, -, rfl⟩
  · rw [ha] at e0
    exact absurd (e0.resolve_right (by simp)) hJ
  · rcases h2 with ⟨-, g0, -⟩ | ⟨-, rfl⟩
    · rw [ha] at g0
      cases g0
    · rfl

/-- Calls with iteration numbers other than 0 -/
inductive LazyCalls (m : Nat) : Dir K → List (List K × List K) → Dir K → Prop
  | nil (s : Dir K) : LazyCalls m s [] s
  | cons {s s' s'' : Dir K} {F : Mapping K} {dx : K} {trim : Trimmer K} {x f d : List K} {it : Nat}
      {ps : List (List K × List K)} : it ≠ 0 → s.direction (.lazy m) F dx trim x f it = .ok (s', d) →
      LazyCalls m s' ps s'' → LazyCalls m s ((x, f) :: ps) s''

/-- Broyden's rank-one matrix for the step from one point to the next one -/
def stepTerm (n : Nat) (J : FMat K) (p q : List K × List K) (i j : Fin n) : K :=
  ((vecOf q.2 n i - vecOf p.2 n i) - (J.dense n n).mulVec (fun k => vecOf q.1 n k - vecOf p.1 n k) i) /
    ((fun k => vecOf q.1 n k - vecOf p.1 n k) ⬝ᵥ fun k => vecOf q.1 n k - vecOf p.1 n k) * (vecOf q.1 n j - vecOf p.1 n j)

/-- Sum of these matrices along a run, all of them with the same `J` -/
def stepSum (n : Nat) (J : FMat K) (i j : Fin n) : List K × List K → List (List K × List K) → K
  | _, [] => 0
  | p, q :: ps => stepTerm n J p q i j + stepSum n J i j q ps

/-- The accumulated matrix has the elements `c` at the positions of `J`. -/
def Acc (n : Nat) (J dJ : FMat K) (c : Fin n → Fin n → K) : Prop :=
  dJ.data.map Prod.fst = J.data.map Prod.fst ∧ ∀ (i j : Fin n) v, ((i.1, j.1), v) ∈ dJ.data → v = c i j

theorem acc_step {n : Nat} {s : Dir K} {x0 f0 x f : List K} {dJ : FMat K} {c : Fin n → Fin n → K}
    (hi : Increasing s.prov.J.data) (hs : s.prov.J.size = (n, n)) (hin : ∀ e ∈ s.prov.J.data, e.1.1 < n ∧ e.1.2 < n)
    (hp : s.prev = some (x0, f0)) (l1 : x0.length = n) (l2 : f0.length = n) (l3 : x.length = n) (l4 : f.length = n)
    (ha : Acc n s.prov.J s.dJ c) (h : Accumulates x f s dJ) :
    Acc n s.prov.J dJ (fun i j => c i j + stepTerm n s.prov.J (x0, f0) (x, f) i j) := by
  unfold Accumulates at h
  rw [hp] at h
  obtain ⟨dxv, df, left, data, e1, e2, e3, e4, rfl⟩ := h
  obtain ⟨dx', v1, v2, v3⟩ := vsub_ok (a := x) (b := x0) (by omega)
  obtain ⟨df', w1, w2, w3⟩ := vsub_ok (a := f) (b := f0) (by omega)
  dsimp only at e1 e2
  rw [e1] at v1
  cases v1
  rw [e2] at w1
  cases w1
  have hu : UpdateArgs n s.prov.J dxv df := ⟨hi, hs, hin, by omega, by omega⟩
  have hne : vecOf dxv n ⬝ᵥ vecOf dxv n ≠ 0 := by
    intro h0
    unfold updateLeft at e3
    obtain ⟨_, -, e3⟩ := bind_inv e3
    obtain ⟨_, -, e3⟩ := bind_inv e3
    rw [normSq_eq hu.lenx, h0] at e3
    unfold Res.div at e3
    rw [if_pos rfl] at e3
    cases e3
  obtain ⟨l, k1, k2, k3⟩ := updateLeft_ok hu hne
  rw [e3] at k1
  cases k1
  have hin' : ∀ e ∈ s.dJ.data, e.1.1 < n ∧ e.1.2 < n := by
    intro e he
    have : e.1 ∈ s.dJ.data.map Prod.fst := List.mem_map_of_mem he
    rw [ha.1] at this
    obtain ⟨e', h1, h2⟩ := List.mem_map.1 this
    rw [← h2]
    exact hin e' h1
  rw [addOuter_ok s.dJ.data hin' k2 hu.lenx] at e4
  cases e4
  have hvx : vecOf dxv n = fun k => vecOf x n k - vecOf x0 n k := by
    funext k
    exact v3 k (by omega)
  have hvf : vecOf df n = fun k => vecOf f n k - vecOf f0 n k := by
    funext k
    exact w3 k (by omega)
  refine ⟨?_, ?_⟩
  · rw [← ha.1]
    simp only [List.map_map]
    rfl
  · intro i j v hv
    obtain ⟨e, h1, h2⟩ := List.mem_map.1 hv
    obtain ⟨⟨a, b⟩, w⟩ := e
    simp only [Prod.mk.injEq] at h2
    obtain ⟨⟨rfl, rfl⟩, rfl⟩ := h2
    rw [ha.2 i j w h1, k3 i]
    have : dxv.getD j 0 = vecOf dxv n j := rfl
    rw [this]
    unfold stepTerm leftSpec
    rw [hvx, hvf]

theorem acc_calls {m n : Nat} {s s' : Dir K} {x0 f0 : List K} {ps : List (List K × List K)} {c : Fin n → Fin n → K}
    (hi : Increasing s.prov.J.data) (hs : s.prov.J.size = (n, n)) (hin : ∀ e ∈ s.prov.J.data, e.1.1 < n ∧ e.1.2 < n)
    (hp : s.prev = some (x0, f0)) (l1 : x0.length = n) (l2 : f0.length = n)
    (hl : ∀ p ∈ ps, p.1.length = n ∧ p.2.length = n) (ha : Acc n s.prov.J s.dJ c) (h : LazyCalls m s ps s') :
    s'.prov = s.prov ∧ Acc n s.prov.J s'.dJ (fun i j => c i j + stepSum n s.prov.J i j (x0, f0) ps) := by
  induction h generalizing x0 f0 c with
  | nil s =>
    refine ⟨rfl, ?_⟩
    simpa [stepSum] using ha
  | @cons s s' s'' F dx trim x f d it ps hit hc _ ih =>
    obtain ⟨hprov, -⟩ := C113_later hit hc
    obtain ⟨l3, l4⟩ := hl _ List.mem_cons_self
    have hstep : s'.prev = some (x, f) ∧ Accumulates x f s s'.dJ := by
      obtain ⟨s1, h1, s2, h2, lu, h3, rfl⟩ := lazy_inv hc
      rcases h1 with ⟨e0, -⟩ | ⟨-, dJ, e1, rfl⟩
      · exact absurd e0 hit
      · rcases h2 with ⟨g0, -⟩ | ⟨-, rfl⟩
        · exact absurd g0 hit
        · exact ⟨rfl, e1⟩
    have ha' := acc_step hi hs hin hp l1 l2 l3 l4 ha hstep.2
    rw [← hprov] at hi hs hin ha'
    obtain ⟨k1, k2⟩ := ih hi hs hin hstep.1 l3 l4 (fun p hp => hl p (List.mem_cons_of_mem _ hp)) ha'
    refine ⟨k1.trans hprov, ?_⟩
    rw [hprov] at k2
    unfold stepSum
    simpa only [add_assoc] using k2

/-- C113: after a successful run of more than `lazy_iterations` iterations the Jacobian used in it is replaced: to
every stored element the elements of Broyden's rank-one matrices are added, one for every step of the run, all of them
computed with the Jacobian used in the run. -/
theorem C113_update {m n : Nat} {s0 s s' t : Dir K} {F G : Mapping K} {dx dy : K} {trim trim' : Trimmer K}
    {x0 f0 d0 y g d : List K} {ps : List (List K × List K)} (ha : s0.action = .recompute)
    (h0 : s0.direction (.lazy m) F dx trim x0 f0 0 = .ok (s, d0))
    (hi : Increasing s.prov.J.data) (hs : s.prov.J.size = (n, n)) (hin : ∀ e ∈ s.prov.J.data, e.1.1 < n ∧ e.1.2 < n)
    (hne : s.prov.J.data ≠ []) (l1 : x0.length = n) (l2 : f0.length = n)
    (hl : ∀ p ∈ ps, p.1.length = n ∧ p.2.length = n) (h : LazyCalls m s ps s') (hm : m < s'.lastIter + 1)
    (hc : ((s'.reportSuccess (.lazy m) true).reset (.lazy m) false).direction (.lazy m) G dy trim' y g 0 = .ok (t, d)) :
    s0.prov.compute F dx trim x0 = .ok s.prov ∧ ∀ i j : Fin n, Data.find t.prov.J.data (i.1, j.1)
      = (Data.find s.prov.J.data (i.1, j.1)).map (· + stepSum n s.prov.J i j (x0, f0) ps) := by
  have first : s0.prov.compute F dx trim x0 = .ok s.prov ∧ s.prev = some (x0, f0) ∧ s.dJ = s.prov.J.makeZero := by
    obtain ⟨s1, h1, s2, h2, lu, h3, rfl⟩ := lazy_inv h0
    rcases h2 with ⟨-, g1, -⟩ | ⟨-, rfl⟩
    · rw [ha] at g1
      cases g1
    · rcases h1 with ⟨e0, e1, prov, lu1, e2, e3, rfl⟩ | ⟨e0, -⟩
      · exact ⟨e2, rfl, rfl⟩
      · exact absurd ⟨rfl, Or.inr ha⟩ e0
  obtain ⟨q1, q2, q3⟩ := first
  refine ⟨q1, ?_⟩
  have hacc : Acc n s.prov.J s.dJ (fun _ _ => 0) := by
    rw [q3]
    unfold FMat.makeZero
    refine ⟨by simp [List.map_map], fun i j v hv => ?_⟩
    obtain ⟨e, -, h2⟩ := List.mem_map.1 hv
    exact (Prod.mk.inj h2).2.symm
  obtain ⟨hprov, k1, k2⟩ := acc_calls hi hs hin q2 l1 l2 hl hacc h
  simp only [zero_add] at k2
  have hact : ((s'.reportSuccess (.lazy m) true).reset (.lazy m) false).action = .update := by
    unfold Dir.reset Dir.reportSuccess
    simp [Nat.le_of_lt_succ hm]
  obtain ⟨s1, h1, s2, h2, lu, h3, rfl⟩ := lazy_inv hc
  rcases h1 with ⟨-, e0, -⟩ | ⟨-, dJ, e1, rfl⟩
  · rw [hact] at e0
    exact absurd (hprov ▸ e0.resolve_right (by simp)) hne
  · have e1 : dJ = s'.dJ := e1
    subst e1
    rcases h2 with ⟨-, -, J, lu2, g1, g2, rfl⟩ | ⟨g0, -⟩
    · have g1 : addFast s'.prov.J s'.dJ = .ok J := g1
      unfold addFast at g1
      obtain ⟨d', g4, g3⟩ := bind_inv g1
      cases g3
      have hinc : Increasing s'.dJ.data := by
        unfold Increasing at hi ⊢
        have e1 : ∀ l : List (Index × K),
            l.Pairwise (fun a b => a.1.1 < b.1.1 ∨ (a.1.1 = b.1.1 ∧ a.1.2 < b.1.2)) ↔
            (l.map Prod.fst).Pairwise (fun a b => a.1 < b.1 ∨ (a.1 = b.1 ∧ a.2 < b.2)) := by
          intro l; rw [List.pairwise_map]
        rw [e1, k1, ← e1]
        exact hi
      obtain ⟨-, -, f3⟩ := fold_fastAdd s'.dJ.data s'.prov.J.data (by rw [hprov]; exact hi) hinc g4
      intro i j
      have f3 := f3 (i.1, j.1)
      rw [hprov] at f3
      refine f3.trans ?_
      cases hf : Data.find s.prov.J.data (i.1, j.1) with
      | none => rfl
      | some v =>
        have : (i.1, j.1) ∈ s'.dJ.data.map Prod.fst := by
          rw [k1]
          exact List.mem_map.2 ⟨_, (Data.mem_iff hi).2 hf, rfl⟩
        obtain ⟨e, he, hk⟩ := List.mem_map.1 this
        obtain ⟨k, w⟩ := e
        dsimp only at hk
        subst hk
        rw [(Data.mem_iff hinc).1 he, k2 i j w he]
        rfl
    · exact absurd ⟨rfl, hact⟩ g0

/-- C113 (`_partial`: a run of one step, and all columns in which the step is not zero are stored in the row; false for
more steps, see `C113_false`): the new Jacobian maps the last step of the run to the change of the residual. -/
theorem C113_secant_partial {m n : Nat} {s0 s s' t : Dir K} {F G : Mapping K} {dx dy : K} {trim trim' : Trimmer K}
    {x0 f0 d0 x1 f1 y g d : List K} (ha : s0.action = .recompute)
    (h0 : s0.direction (.lazy m) F dx trim x0 f0 0 = .ok (s, d0))
    (hi : Increasing s.prov.J.data) (hs : s.prov.J.size = (n, n)) (hin : ∀ e ∈ s.prov.J.data, e.1.1 < n ∧ e.1.2 < n)
    (hne : s.prov.J.data ≠ []) (l1 : x0.length = n) (l2 : f0.length = n) (l3 : x1.length = n) (l4 : f1.length = n)
    (h : LazyCalls m s [(x1, f1)] s') (hm : m < s'.lastIter + 1)
    (hc : ((s'.reportSuccess (.lazy m) true).reset (.lazy m) false).direction (.lazy m) G dy trim' y g 0 = .ok (t, d))
    (hdx : (fun k => vecOf x1 n k - vecOf x0 n k) ⬝ᵥ (fun k => vecOf x1 n k - vecOf x0 n k) ≠ 0)
    (i : Fin n) (hrow : ∀ j : Fin n, vecOf x1 n j ≠ vecOf x0 n j → ∃ v, ((i.1, j.1), v) ∈ s.prov.J.data) :
    (t.prov.J.dense n n).mulVec (fun k => vecOf x1 n k - vecOf x0 n k) i = vecOf f1 n i - vecOf f0 n i := by
  obtain ⟨-, h2⟩ := C113_update ha h0 hi hs hin hne l1 l2 (by simpa using ⟨l3, l4⟩) h hm hc
  have hsum : ∀ j, stepSum n s.prov.J i j (x0, f0) [(x1, f1)] = stepTerm n s.prov.J (x0, f0) (x1, f1) i j := by
    intro j
    unfold stepSum stepSum
    rw [add_zero]
  have h1 : (t.prov.J.dense n n).mulVec (fun k => vecOf x1 n k - vecOf x0 n k) i = ∑ j, (s.prov.J.dense n n i j +
      stepTerm n s.prov.J (x0, f0) (x1, f1) i j) * (vecOf x1 n j - vecOf x0 n j) := by
    unfold Matrix.mulVec dotProduct
    apply Finset.sum_congr rfl
    intro j _
    beta_reduce
    by_cases hj : vecOf x1 n j = vecOf x0 n j
    · rw [hj, sub_self, mul_zero, mul_zero]
    · obtain ⟨v, hv⟩ := hrow j hj
      have h3 := h2 i j
      rw [(Data.mem_iff hi).1 hv, hsum] at h3
      congr 1
      unfold FMat.dense Sparse.dense
      dsimp only
      rw [Data.get_eq, Data.get_eq, h3, (Data.mem_iff hi).1 hv]
      rfl
  rw [h1]
  unfold stepTerm
  simp only [add_mul, Finset.sum_add_distrib, mul_assoc]
  rw [← Finset.mul_sum]
  have h5 : ∑ j, (vecOf x1 n j - vecOf x0 n j) * (vecOf x1 n j - vecOf x0 n j) =
    (fun k => vecOf x1 n k - vecOf x0 n k) ⬝ᵥ (fun k => vecOf x1 n k - vecOf x0 n k) := rfl
  have h6 : ∑ j, s.prov.J.dense n n i j * (vecOf x1 n j - vecOf x0 n j) =
    (s.prov.J.dense n n).mulVec (fun k => vecOf x1 n k - vecOf x0 n k) i := rfl
  rw [h5, h6, div_mul_cancel₀ _ hdx]
  ring

end

/-! ### Concrete cases and counterexamples -/

/-- A run of three iterations with full steps on the equation `x² = 0`, success, and the first iteration of the next
run; the states after the iterations -/
def exRun : Res (Dir ℚ × Dir ℚ × Dir ℚ × Dir ℚ × List ℚ) := do
  let a ← (Dir.new (Prov.new .default)).direction (.lazy 2) exSquare 1 none [1] [1] 0
  let b ← a.1.direction (.lazy 2) exSquare 1 none [2 / 3] [4 / 9] 1
  let c ← b.1.direction (.lazy 2) exSquare 1 none [14 / 27] [196 / 729] 2
  let t ← ((c.1.reportSuccess (.lazy 2) true).reset (.lazy 2) false).direction (.lazy 2) exSquare 1 none
    [14 / 27] [196 / 729] 0
  .ok (a.1, b.1, c.1, t.1, t.2)

theorem exRun_ok : ∃ a b c t d, exRun = .ok (a, b, c, t, d) ∧ a.prov.J.data = [((0, 0), 3)] ∧ a.prov.J.size = (1, 1) ∧
    t.prov.J.data = [((0, 0), -4 / 27)] ∧ d = [49 / 27] ∧ c.lastIter = 2 := by
  obtain ⟨⟨a, b, c, t, d⟩, h1, h2⟩ := Verif.Res.exists_of_test (r := exRun)
    (p := fun r => decide (r.1.prov.J.data = [((0, 0), 3)] ∧ r.1.prov.J.size = (1, 1) ∧
      r.2.2.2.1.prov.J.data = [((0, 0), -4 / 27)] ∧ r.2.2.2.2 = [49 / 27] ∧ r.2.2.1.lastIter = 2)) (by decide +kernel)
  have h2 := of_decide_eq_true h2
  exact ⟨a, b, c, t, d, h1, h2⟩

theorem exRun_inv {a b c t : Dir ℚ} {d : List ℚ} (h : exRun = .ok (a, b, c, t, d)) :
    (∃ d, (Dir.new (Prov.new .default)).direction (.lazy 2) exSquare 1 none [1] [1] 0 = .ok (a, d)) ∧
    LazyCalls 2 a [([2 / 3], [4 / 9]), ([14 / 27], [196 / 729])] c ∧
    ((c.reportSuccess (.lazy 2) true).reset (.lazy 2) false).direction (.lazy 2) exSquare 1 none
      [14 / 27] [196 / 729] 0 = .ok (t, d) := by
  unfold exRun at h
  obtain ⟨⟨a', d1⟩, e1, h⟩ := bind_inv h
  obtain ⟨⟨b', d2⟩, e2, h⟩ := bind_inv h
  obtain ⟨⟨c', d3⟩, e3, h⟩ := bind_inv h
  obtain ⟨⟨t', d4⟩, e4, h⟩ := bind_inv h
  cases h
  exact ⟨⟨d1, e1⟩, .cons (by decide) e2 (.cons (by decide) e3 (.nil _)), e4⟩

/-- C113 is false for runs of more than one step: for `x² = 0` and full steps from 1 the Jacobian after the run is
negative, although all difference quotients at the points of the run are positive; the next direction leads away from
the root. -/
theorem C113_false : ∃ a c t d, (∃ d, (Dir.new (Prov.new .default)).direction (.lazy 2) exSquare 1 none [1] [1] 0 = .ok (a, d)) ∧
    LazyCalls 2 a [([2 / 3], [4 / 9]), ([14 / 27], [196 / 729])] c ∧
    ((c.reportSuccess (.lazy 2) true).reset (.lazy 2) false).direction (.lazy 2) exSquare 1 none
      [14 / 27] [196 / 729] 0 = .ok (t, d) ∧ a.prov.J.data = [((0, 0), 3)] ∧ t.prov.J.data = [((0, 0), -4 / 27)] ∧
    d = [49 / 27] ∧ exSquare.map [2 / 3] = .ok [4 / 9] ∧ exSquare.map [14 / 27] = .ok [196 / 729] ∧
    (t.prov.J.dense 1 1).mulVec (fun k => vecOf [14 / 27] 1 k - vecOf [2 / 3] 1 k) ≠
      fun i => vecOf [196 / 729] 1 i - vecOf [4 / 9] 1 i := by
  obtain ⟨a, b, c, t, d, h1, h2, h3, h4, h5, h6⟩ := exRun_ok
  obtain ⟨e1, e2, e3⟩ := exRun_inv h1
  refine ⟨a, c, t, d, e1, e2, e3, h2, h4, h5, by decide +kernel, by decide +kernel, ?_⟩
  intro hcon
  have := congrFun hcon 0
  unfold FMat.dense Sparse.dense at this
  simp only [h4] at this
  revert this
  decide +kernel

/-- The hypotheses of `C113_update` and `C86_lazy_partial` are met. -/
example : ∃ a c t d d', (Dir.new (Prov.new .default)).direction (.lazy 2) exSquare 1 none [1] [1] 0 = .ok (a, d) ∧
    LazyCalls 2 a [([2 / 3], [4 / 9]), ([14 / 27], [196 / 729])] c ∧ 2 < c.lastIter + 1 ∧
    ((c.reportSuccess (.lazy 2) true).reset (.lazy 2) false).direction (.lazy 2) exSquare 1 none
      [14 / 27] [196 / 729] 0 = .ok (t, d') ∧
    Increasing a.prov.J.data ∧ a.prov.J.size = (1, 1) ∧ a.prov.J.data ≠ [] ∧
    LU.Stencil 1 a.prov.J.data ∧ LU.Distinct a.prov.J.data ∧ LU.Filled a.prov.J.data := by
  obtain ⟨a, b, c, t, d, h1, h2, h3, h4, h5, h6⟩ := exRun_ok
  obtain ⟨⟨d', e1⟩, e2, e3⟩ := exRun_inv h1
  have hk : ∀ r c, LU.Key ([((0, 0), 3)] : LU.Entries ℚ) r c ↔ r = 0 ∧ c = 0 := by
    intro r c
    simp [LU.key_iff]
  refine ⟨a, c, t, d', d, e1, e2, by omega, e3, by rw [h2]; unfold Increasing; decide, h3, by rw [h2]; simp, ?_⟩
  rw [h2]
  refine ⟨⟨fun r c h => ?_, fun i hi => ⟨0, by omega, (hk _ _).2 ⟨by omega, rfl⟩⟩,
    fun i hi => ⟨0, by omega, (hk _ _).2 ⟨rfl, by omega⟩⟩⟩, by unfold LU.Distinct; decide, fun r c h ⟨r', h1, h2⟩ => ?_⟩
  · have := (hk r c).1 h
    omega
  · have := (hk _ _).1 h2
    omega

/-- C86 is false for the lazy direction if the first call after a hard reset has an iteration number other than 0: the
Jacobian of the provider is 3, and the direction is the residual with the sign changed. -/
theorem C86_lazy_false : ∃ s d s' d', (Dir.new (Prov.new .default)).direction (.lazy 10) exSquare 1 none [1] [1] 0 = .ok (s, d) ∧
    (s.reset (.lazy 10) true).direction (.lazy 10) exSquare 1 none [1] [1] 1 = .ok (s', d') ∧
    s'.prov.J.data = [((0, 0), 3)] ∧ d' = [-1] := by
  obtain ⟨⟨s, d⟩, h1, h2⟩ := Verif.Res.exists_of_test
    (r := (Dir.new (Prov.new .default)).direction (.lazy 10) exSquare 1 none [1] [1] 0)
    (p := fun s => match (s.1.reset (.lazy 10) true).direction (.lazy 10) exSquare 1 none [1] [1] 1 with
      | .ok r => decide (r.1.prov.J.data = [((0, 0), 3)] ∧ r.2 = [-1])
      | .error _ => false) (by decide +kernel)
  split at h2
  · rename_i r e
    obtain ⟨h3, h4⟩ := of_decide_eq_true h2
    exact ⟨s, d, r.1, r.2, h1, e, h3, h4⟩
  · cases h2

end Verif.Alg
