import Verif.Alg.CalcProps
import Verif.Alg.UpdateProps
import Verif.LU.Repeat
import Mathlib.LinearAlgebra.Matrix.Determinant.Basic

/-! # Properties of the Newton descent directions on affine systems -/

namespace Verif.Alg

open Verif.Res Verif.Vec Verif.Sparse

set_option linter.unusedSectionVars false

section
variable {K : Type} [Field K] [DecidableEq K]

/-! ### The Jacobian of an affine mapping -/

/-- Gaussian elimination meets no zero pivot, and the pattern of the nonzero elements satisfies the fill
condition of the factorizer. -/
structure Solvable (n : Nat) (A : Nat → Nat → K) : Prop where
  minors : ∀ k, k ≤ n → (Matrix.of (fun i j : Fin k => A i j)).det ≠ 0
  fill : ∀ r c, r < c → c < n → (∃ r', r' ≤ r ∧ A r' c ≠ 0) → ∃ c', c ≤ c' ∧ c' < n ∧ A r c' ≠ 0

/-- `J` is the Jacobian of `A x - b` as `computeJacobian` stores it. -/
structure IsJac (n : Nat) (A : Nat → Nat → K) (b : Nat → K) (dx : K) (J : Mat K) : Prop where
  computed : ∀ x0 : List K, x0.length = n → computeJacobian (affine n A b) dx x0 = .ok J
  size : J.size = (n, n)
  wf : Wf J
  values : ∀ r c, r < n → c < n → J.data.get (r, c) = A r c
  stored : ∀ r c, (∃ v, ((r, c), v) ∈ J.data) ↔ r < n ∧ c < n ∧ A r c ≠ 0

theorem stored_iff {J : Mat K} (h : Wf J) (i : Index) :
    (J.data.find i).isSome ↔ ∃ v, (i, v) ∈ J.data := by
  constructor
  · intro hs
    obtain ⟨v, hv⟩ := Option.isSome_iff_exists.1 hs
    exact ⟨v, (Data.mem_iff h.inc).2 hv⟩
  · rintro ⟨v, hv⟩
    rw [(Data.mem_iff h.inc).1 hv]
    rfl

theorem exists_jac (n : Nat) (A : Nat → Nat → K) (b : Nat → K) {dx : K} (hdx : dx ≠ 0) :
    ∃ J, IsJac n A b dx J := by
  obtain ⟨J, h1, h2, h3, h4, h5⟩ := C82_affine A b hdx (x0 := List.replicate n 0)
    (List.length_replicate (n := n))
  refine ⟨J, ?_, h2, h3, h4, fun r c => by rw [← stored_iff h3, h5]⟩
  intro x0 hx
  obtain ⟨J', k1, k2, k3, k4, k5⟩ := C82_affine A b hdx (x0 := x0) hx
  rw [k1]
  congr 1
  obtain ⟨s, d⟩ := J
  obtain ⟨s', d'⟩ := J'
  dsimp only at h2 k2
  rw [h2, k2]
  congr 1
  apply Data.ext_of_find k3.inc h3.inc
  rintro ⟨r, c⟩
  have hs : (d'.find (r, c)).isSome ↔ (d.find (r, c)).isSome := (k5 r c).trans (h5 r c).symm
  by_cases hrc : (d.find (r, c)).isSome
  · obtain ⟨hr, hc, -⟩ := (h5 r c).1 hrc
    have e1 := h4 r c hr hc
    have e2 := k4 r c hr hc
    dsimp only at e1 e2
    rw [Data.get_eq] at e1 e2
    obtain ⟨v, hv⟩ := Option.isSome_iff_exists.1 hrc
    obtain ⟨v', hv'⟩ := Option.isSome_iff_exists.1 (hs.2 hrc)
    rw [hv] at e1
    rw [hv'] at e2
    rw [hv, hv']
    simp only [Option.getD_some] at e1 e2
    rw [e1, e2]
  · have hrc' : ¬ (d'.find (r, c)).isSome := fun h => hrc (hs.1 h)
    rw [Option.not_isSome_iff_eq_none] at hrc hrc'
    rw [hrc, hrc']

theorem entry_eq (d : Data K) (r c : Nat) : LU.entry d r c = d.get (r, c) := by
  unfold LU.entry Data.get Data.find
  cases List.find? (fun e => e.1 == (r, c)) d <;> rfl

theorem jac_stencil {n : Nat} {A : Nat → Nat → K} {b : Nat → K} {dx : K} {J : Mat K}
    (h : IsJac n A b dx J) (hA : Solvable n A) :
    LU.Stencil n J.data ∧ LU.Distinct J.data ∧ LU.Filled J.data ∧ LU.MinorsNonzero J.data n := by
  refine ⟨⟨?_, ?_, ?_⟩, Data.inc_nodup h.wf.inc, ?_, ?_⟩
  · intro r c hk
    obtain ⟨h1, h2, -⟩ := (h.stored r c).1 hk
    exact ⟨h1, h2⟩
  · intro i hi
    by_contra hno
    push Not at hno
    apply hA.minors (i + 1) hi
    apply Matrix.det_eq_zero_of_row_eq_zero (Fin.last i)
    intro j
    by_contra hne
    exact hno j (by omega) ((h.stored i j).2 ⟨hi, by omega, hne⟩)
  · intro i hi
    by_contra hno
    push Not at hno
    apply hA.minors (i + 1) hi
    apply Matrix.det_eq_zero_of_column_eq_zero (Fin.last i)
    intro j
    by_contra hne
    exact hno j (by omega) ((h.stored j i).2 ⟨by omega, hi, hne⟩)
  · intro r c hrc ⟨r', hr', hk⟩
    obtain ⟨-, hc, hne⟩ := (h.stored r' c).1 hk
    obtain ⟨c', h1, h2, h3⟩ := hA.fill r c hrc hc ⟨r', hr', hne⟩
    exact ⟨c', h1, (h.stored r c').2 ⟨by omega, h2, h3⟩⟩
  · intro k hk
    have : LU.matrixOf J.data k = Matrix.of (fun i j : Fin k => A i j) := by
      funext i j
      show LU.entry J.data i j = A i j
      rw [entry_eq, h.values i j (by omega) (by omega)]
    rw [this]
    exact hA.minors k hk

/-! ### Providers -/

/-- What a provider used on the affine mapping only can hold -/
def ProvInv (J : Mat K) (p : Prov K) : Prop :=
  (p.J.data = [] ∨ p.J = FMat.ofMat J) ∧
  (p.kind = .sparse → p.J.data ≠ [] → ∃ lay, p.lay = some lay ∧ layout (FMat.ofMat J) = .ok lay)

theorem affine_total (n : Nat) (A : Nat → Nat → K) (b : Nat → K) : Total (affine n A b) := by
  intro x hx
  exact ⟨_, affine_ok hx, by simp [affine]⟩

theorem affine_depends {n : Nat} {A : Nat → Nat → K} {b : Nat → K} {S : Nat → Nat → Prop}
    (h : ∀ r c, r < n → c < n → A r c ≠ 0 → S r c) : DependsOn (affine n A b) S := by
  intro x y fx fy hx hy h1 h2 r hr
  have hx : x.length = n := hx
  have hy : y.length = n := hy
  rw [affine_ok hx] at h1
  rw [affine_ok hy] at h2
  cases h1; cases h2
  by_cases hrn : r < n
  · rw [getD_map_range hrn, getD_map_range hrn]
    congr 1
    apply Finset.sum_congr rfl
    intro c hc
    have hc := Finset.mem_range.1 hc
    by_cases h0 : A r c = 0
    · rw [h0, zero_mul, zero_mul]
    · rw [hr c hc (h r c hrn hc h0)]
  · simp [List.getD_eq_getElem?_getD, hrn]

theorem compute_inv {n : Nat} {A : Nat → Nat → K} {b : Nat → K} {dx : K} (hdx : dx ≠ 0) {J : Mat K}
    (h : IsJac n A b dx J) {p : Prov K} (hp : ProvInv J p) {x0 : List K} (hx : x0.length = n) :
    ∃ p', p.compute (affine n A b) dx none x0 = .ok p' ∧ p'.kind = p.kind ∧ p'.J = FMat.ofMat J ∧
      ProvInv J p' := by
  have hin : (FMat.ofMat J).Inside := h.wf.inside
  obtain ⟨lay, hlay, -, -⟩ := layout_ok hin
  unfold Prov.compute
  cases hk : p.kind with
  | default =>
    dsimp only
    rw [h.computed x0 hx, bind_ok]
    refine ⟨_, rfl, rfl, rfl, Or.inr rfl, fun hs => ?_⟩
    cases hs
  | sparse =>
    dsimp only
    by_cases hE : p.J.data = []
    · rw [if_pos (by rw [hE]; rfl), h.computed x0 hx, bind_ok, hlay, bind_ok]
      exact ⟨_, rfl, rfl, rfl, Or.inr rfl, fun _ _ => ⟨lay, rfl, hlay⟩⟩
    · rw [if_neg (by simpa using hE)]
      obtain ⟨lay', hl1, hl2⟩ := hp.2 hk hE
      have hJ : p.J = FMat.ofMat J := hp.1.resolve_left hE
      rw [hl1]
      dsimp only
      obtain ⟨J2, e1, e2, e3, e4⟩ := C82_differences (F := affine n A b) hdx (x0 := x0)
        (f := fun i => (List.range n).map
          (fun r => (∑ c ∈ Finset.range n, A r c * (bump x0 i dx).getD c 0) - b r))
        hx (affine_ok hx) (by simp [affine])
        (fun i hi => ⟨affine_ok (by simp [hx]), by simp [affine]⟩)
      rw [h.computed x0 hx] at e1
      cases e1
      have hc := C15_values (J := FMat.ofMat J) (F := affine n A b) (x0 := x0) (delta := dx)
        (f := fun i => (List.range n).map
          (fun r => (∑ c ∈ Finset.range n, A r c * (bump x0 i dx).getD c 0) - b r))
        hin (by show J.size = (n, n); exact h.size) (affine_total n A b)
        (affine_depends (fun r c hr hc h0 => (h.stored r c).2 ⟨hr, hc, h0⟩)) hx hdx (affine_ok hx)
        (fun c hc => affine_ok (by rw [List.length_set, hx]))
      unfold computeSparseJacobian at hc
      rw [hl2, bind_ok] at hc
      rw [hJ, hc, bind_ok]
      have hsame : (FMat.ofMat J).data.map (fun e => (e.1, (((fun i => (List.range n).map
          (fun r => (∑ c ∈ Finset.range n, A r c * (bump x0 i dx).getD c 0) - b r)) e.1.2).getD e.1.1 0
          - ((List.range n).map (fun r => (∑ c ∈ Finset.range n, A r c * x0.getD c 0) - b r)).getD e.1.1 0)
          / dx)) = (FMat.ofMat J).data := by
        have : ∀ e ∈ (FMat.ofMat J).data, (fun e : Index × K => (e.1, (((fun i => (List.range n).map
            (fun r => (∑ c ∈ Finset.range n, A r c * (bump x0 i dx).getD c 0) - b r)) e.1.2).getD e.1.1 0
            - ((List.range n).map (fun r => (∑ c ∈ Finset.range n, A r c * x0.getD c 0) - b r)).getD e.1.1 0)
            / dx)) e = id e := by
          intro e he
          have hf := (Data.mem_iff h.wf.inc).1 (show (e.1, e.2) ∈ J.data from he)
          have h4 := e4 e.1.1 e.1.2
          rw [show (e.1.1, e.1.2) = e.1 from rfl, hf] at h4
          split at h4
          · have := Option.some.inj h4
            exact Prod.ext rfl this.symm
          · cases h4
        rw [List.map_congr_left this, List.map_id]
      refine ⟨_, rfl, rfl, ?_, ?_⟩
      · dsimp only
        rw [hsame]
      · refine ⟨Or.inr ?_, fun _ _ => ⟨lay', rfl, hl2⟩⟩
        dsimp only
        rw [hsame]

/-! ### Updates leave the matrix of an affine mapping alone -/

theorem update_same {n : Nat} {J : FMat K} {dx df : List K} (h : UpdateArgs n J dx df)
    (hne : vecOf dx n ⬝ᵥ vecOf dx n ≠ 0) (hs : (J.dense n n).mulVec (vecOf dx n) = vecOf df n) :
    fakeBroydenUpdate J dx df = .ok J ∧ broydenUpdate n J dx df = .ok J := by
  have hzero : ∀ i, leftSpec n J dx df i = 0 := by
    intro i
    unfold leftSpec
    rw [hs, sub_self, zero_div]
  have h1 : fakeBroydenUpdate J dx df = .ok J := by
    obtain ⟨l, e1, e2, e3⟩ := updateLeft_ok h hne
    unfold fakeBroydenUpdate
    rw [e1, bind_ok, addOuter_ok J.data h.inside e2 h.lenx, bind_ok]
    congr 1
    have : ∀ e ∈ J.data, (fun e : Index × K => (e.1, e.2 + l.getD e.1.1 0 * dx.getD e.1.2 0)) e = id e := by
      intro e he
      have := e3 ⟨e.1.1, (h.inside e he).1⟩
      dsimp only at this
      dsimp only
      rw [this, hzero, zero_mul, add_zero]
      rfl
    rw [List.map_congr_left this, List.map_id]
  refine ⟨h1, ?_⟩
  rw [(C18_broyden h hne).1, h1]
  intro i j hi
  rw [hs, sub_self] at hi
  exact absurd rfl hi

/-! ### Histories of calls -/

/-- The descent directions with an exact theory on affine systems -/
def DirKind.Exact : DirKind → Prop
  | .simple | .const | .broyden | .fakeBroyden => True
  | _ => False

/-- Objects after any sequence of calls on the mapping `F` without a trimmer: directions computed at any
points with the values of `F` there, resets, reports. -/
inductive Used (k : DirKind) (pk : ProvKind) (F : Mapping K) (dx : K) : Dir K → Prop
  | new : Used k pk F dx (Dir.new (Prov.new pk))
  | reset {s : Dir K} (hard : Bool) : Used k pk F dx s → Used k pk F dx (s.reset k hard)
  | report {s : Dir K} (success : Bool) : Used k pk F dx s → Used k pk F dx (s.reportSuccess k success)
  | call {s s' : Dir K} {x0 f0 d : List K} {it : Nat} : Used k pk F dx s → x0.length = F.inSize →
      F.map x0 = .ok f0 → s.direction k F dx none x0 f0 it = .ok (s', d) → Used k pk F dx s'

/-- Invariant of such objects for an affine mapping -/
structure DirInv (n : Nat) (A : Nat → Nat → K) (b : Nat → K) (J : Mat K)
    (hS : LU.Stencil n J.data) (s : Dir K) : Prop where
  prov : ProvInv J s.prov
  lu : (s.lu.p = [] ∧ s.lu.factorized = false) ∨ LU.Able hS s.lu
  prev : ∀ x f, s.prev = some (x, f) → x.length = n ∧ (affine n A b).map x = .ok f

theorem hardReset_inv {J : Mat K} {p : Prov K} (h : ProvInv J p) : ProvInv J p.hardReset := by
  unfold Prov.hardReset
  cases hk : p.kind with
  | default => exact h
  | sparse => exact ⟨Or.inl rfl, fun _ hne => absurd rfl hne⟩

theorem reset_inv {n : Nat} {A : Nat → Nat → K} {b : Nat → K} {J : Mat K} {hS : LU.Stencil n J.data}
    {s : Dir K} (h : DirInv n A b J hS s) (k : DirKind) (hard : Bool) :
    DirInv n A b J hS (s.reset k hard) := by
  have hp := hardReset_inv h.prov
  have he : ((LU.Fact.empty : LU.Fact K).p = [] ∧ (LU.Fact.empty : LU.Fact K).factorized = false) ∨
      LU.Able hS (LU.Fact.empty : LU.Fact K) := Or.inl ⟨rfl, rfl⟩
  have hn : ∀ x f, (none : Option (List K × List K)) = some (x, f) →
      x.length = n ∧ (affine n A b).map x = .ok f := fun _ _ h => by cases h
  unfold Dir.reset
  cases hard <;> cases k <;> first
    | exact h
    | exact ⟨h.prov, h.lu, hn⟩
    | exact ⟨hp, he, h.prev⟩
    | exact ⟨hp, h.lu, hn⟩
    | exact ⟨hp, he, hn⟩

/-- One call: what every exact direction does -/
theorem direction_inv {n : Nat} {A : Nat → Nat → K} {b : Nat → K} {dx : K} (hdx : dx ≠ 0) {J : Mat K}
    (hJ : IsJac n A b dx J) (hA : Solvable n A) (hS : LU.Stencil n J.data) {k : DirKind}
    (hk : k.Exact) {s : Dir K} (h : DirInv n A b J hS s) {x0 f0 : List K} (hx : x0.length = n)
    (hf : (affine n A b).map x0 = .ok f0) (it : Nat) :
    Post (s.direction k (affine n A b) dx none x0 f0 it)
      (fun r => DirInv n A b J hS r.1 ∧ r.2.length = n ∧
        (LU.matrixOf J.data n).mulVec (fun i => - r.2.getD i 0) = LU.vec f0 n)
      (fun e => e = .divZero ∧ ∃ x f, s.prev = some (x, f) ∧
        ∑ i ∈ Finset.range n, (x0.getD i 0 - x.getD i 0) * (x0.getD i 0 - x.getD i 0) = 0) := by
  obtain ⟨-, hd, hfill, hmin⟩ := jac_stencil hJ hA
  have hfl : f0.length = n := by
    rw [affine_ok hx] at hf
    cases hf
    simp
  -- the solution step
  have hsolve : ∀ lu, LU.Able hS lu → ∃ lu' d, solveNeg lu f0 = .ok (lu', d) ∧ LU.Able hS lu' ∧
      d.length = n ∧ (LU.matrixOf J.data n).mulVec (fun i => - d.getD i 0) = LU.vec f0 n := by
    intro lu hlu
    obtain ⟨lu', x, e1, e2, e3, e4⟩ := LU.able_solve hS hfill hmin hlu f0 hfl.ge
    unfold solveNeg
    rw [e1, bind_ok]
    refine ⟨lu', _, rfl, e2, by rw [List.length_map, e3, hfl], ?_⟩
    rw [← e4]
    congr 1
    funext i
    have hi : (i : Nat) < x.length := by omega
    unfold LU.vec
    dsimp only
    rw [List.getD_eq_getElem?_getD, List.getElem?_map, List.getD_eq_getElem?_getD,
      List.getElem?_eq_getElem hi]
    simp
  -- setting the matrix
  have hset : ∀ lu, ∃ lu', LU.setMatrix lu J.data = .ok lu' ∧ LU.Able hS lu' := by
    intro lu
    obtain ⟨lu', e1⟩ := ((LU.C02_accept lu J.data).1).2 ⟨n, hS⟩
    exact ⟨lu', e1, LU.able_set hS hd e1⟩
  have hsetf : ∀ lu, ((lu.p = [] ∧ lu.factorized = false) ∨ LU.Able hS lu) →
      ∃ lu', setOrFast lu (FMat.ofMat J) = .ok lu' ∧ LU.Able hS lu' := by
    intro lu hlu
    unfold setOrFast
    by_cases hE : lu.p = []
    · rw [if_pos (by rw [hE]; rfl)]
      exact hset lu
    · rw [if_neg (by simpa using hE)]
      have hab := hlu.resolve_left (fun h => hE h.1)
      have : LU.setMatrixFast lu (FMat.ofMat J).data = LU.setMatrix lu J.data :=
        LU.able_fast hS hab J.data hd (fun _ _ => Iff.rfl)
      rw [this]
      exact hset lu
  obtain ⟨p', c1, c2, c3, c4⟩ := compute_inv hdx hJ h.prov hx
  have hupd : ∀ x f, s.prev = some (x, f) → s.prov.J.data ≠ [] →
      ∃ dxv df, vsub x0 x = .ok dxv ∧ vsub f0 f = .ok df ∧ x0.length = n ∧
        ((vecOf dxv n ⬝ᵥ vecOf dxv n = 0 ∧
          ∑ i ∈ Finset.range n, (x0.getD i 0 - x.getD i 0) * (x0.getD i 0 - x.getD i 0) = 0 ∧
          updateLeft s.prov.J dxv df = .error .divZero) ∨
        (fakeBroydenUpdate s.prov.J dxv df = .ok s.prov.J ∧
          broydenUpdate n s.prov.J dxv df = .ok s.prov.J)) := by
    intro x f hprev hne
    obtain ⟨hxl, hfx⟩ := h.prev x f hprev
    have hfl' : f.length = n := by
      rw [affine_ok hxl] at hfx
      cases hfx
      simp
    obtain ⟨dxv, a1, a2, a3⟩ := vsub_ok (a := x0) (b := x) (by omega)
    obtain ⟨df, b1, b2, b3⟩ := vsub_ok (a := f0) (b := f) (by omega)
    refine ⟨dxv, df, a1, b1, hx, ?_⟩
    have hJp : s.prov.J = FMat.ofMat J := h.prov.1.resolve_left hne
    have hargs : UpdateArgs n s.prov.J dxv df := by
      rw [hJp]
      exact ⟨hJ.wf.inc, hJ.size, by have := hJ.wf.inside; rw [hJ.size] at this; exact this,
        by omega, by omega⟩
    have hsum : vecOf dxv n ⬝ᵥ vecOf dxv n
        = ∑ i ∈ Finset.range n, (x0.getD i 0 - x.getD i 0) * (x0.getD i 0 - x.getD i 0) := by
      rw [Finset.sum_range]
      unfold dotProduct vecOf
      apply Finset.sum_congr rfl
      intro i _
      rw [a3 i (by omega)]
    by_cases hz : vecOf dxv n ⬝ᵥ vecOf dxv n = 0
    · left
      refine ⟨hz, by rw [← hsum, hz], ?_⟩
      obtain ⟨y, hy, hl, hv⟩ := C10_mulVec ⟨s.prov.J.size, s.prov.J.data⟩ n n
        ⟨hargs.inc, by rw [hargs.size]; exact hargs.inside⟩ hargs.size dxv hargs.lenx.ge
      unfold Mat.mulVec at hy
      dsimp only at hy
      obtain ⟨r, hr, -, -⟩ := vsub_ok (a := df) (b := y) (by rw [hargs.lenf, hl])
      unfold updateLeft
      rw [hy, bind_ok, hr, bind_ok, normSq_eq hargs.lenx, hz]
      unfold Res.div
      rw [if_pos rfl]
      rfl
    · right
      refine update_same hargs hz ?_
      funext i
      unfold Matrix.mulVec dotProduct
      have hd1 : ∀ j : Fin n, s.prov.J.dense n n i j = A i j := by
        intro j
        rw [hJp]
        exact hJ.values i j i.2 j.2
      have hv1 : ∀ j : Fin n, vecOf dxv n j = x0.getD j 0 - x.getD j 0 := fun j => a3 j (by omega)
      simp only [hd1, hv1]
      show _ = df.getD i 0
      rw [b3 i (by omega)]
      rw [affine_ok hx] at hf
      rw [affine_ok hxl] at hfx
      cases hf; cases hfx
      rw [getD_map_range i.2, getD_map_range i.2, Finset.sum_range, Finset.sum_range,
        sub_sub_sub_cancel_right, ← Finset.sum_sub_distrib]
      apply Finset.sum_congr rfl
      intro j _
      ring
  have hprev' : ∀ x f, (some (x0, f0) : Option (List K × List K)) = some (x, f) →
      x.length = n ∧ (affine n A b).map x = .ok f := by
    intro x f h
    cases h
    exact ⟨hx, hf⟩
  cases k with
  | simple =>
    unfold Dir.direction Dir.simple
    obtain ⟨lu1, d1, d2⟩ := hsetf s.lu h.lu
    obtain ⟨lu2, d, e1, e2, e3, e4⟩ := hsolve lu1 d2
    dsimp only
    rw [c1, bind_ok, c3, d1, bind_ok, e1, bind_ok]
    exact ⟨⟨c4, Or.inr e2, h.prev⟩, e3, e4⟩
  | const =>
    unfold Dir.direction Dir.const
    dsimp only
    by_cases hfz : s.lu.factorized = true
    · rw [if_pos hfz, bind_ok]
      have hab := h.lu.resolve_left (fun h => by rw [h.2] at hfz; cases hfz)
      obtain ⟨lu2, d, e1, e2, e3, e4⟩ := hsolve s.lu hab
      rw [e1, bind_ok]
      exact ⟨⟨h.prov, Or.inr e2, h.prev⟩, e3, e4⟩
    · rw [if_neg hfz, c1, bind_ok, c3]
      obtain ⟨lu1, d1, d2⟩ := hset s.lu
      rw [show (FMat.ofMat J).data = J.data from rfl, d1, bind_ok, bind_ok]
      obtain ⟨lu2, d, e1, e2, e3, e4⟩ := hsolve lu1 d2
      dsimp only
      rw [e1, bind_ok]
      exact ⟨⟨c4, Or.inr e2, h.prev⟩, e3, e4⟩
  | broyden =>
    unfold Dir.direction Dir.broyden
    dsimp only
    obtain ⟨lu1, d1, d2⟩ := hset (LU.Fact.empty : LU.Fact K)
    obtain ⟨lu2, d, e1, e2, e3, e4⟩ := hsolve lu1 d2
    have hend : ∀ p : Prov K, ProvInv J p → p.J = FMat.ofMat J →
        Post (do
          let lu ← LU.setMatrix LU.Fact.empty p.J.data
          let r ← solveNeg lu f0
          .ok ({ s with prov := p, prev := some (x0, f0) }, r.2) : Res (Dir K × List K))
        (fun r => DirInv n A b J hS r.1 ∧ r.2.length = n ∧
          (LU.matrixOf J.data n).mulVec (fun i => - r.2.getD i 0) = LU.vec f0 n)
        (fun e => e = .divZero ∧ ∃ x f, s.prev = some (x, f) ∧
          ∑ i ∈ Finset.range n, (x0.getD i 0 - x.getD i 0) * (x0.getD i 0 - x.getD i 0) = 0) := by
      intro p hp1 hp2
      rw [hp2, show (FMat.ofMat J).data = J.data from rfl, d1, bind_ok, e1, bind_ok]
      exact ⟨⟨hp1, h.lu, hprev'⟩, e3, e4⟩
    by_cases hE : s.prov.J.data = []
    · rw [if_pos (by rw [hE]; rfl), c1, bind_ok]
      exact hend p' c4 c3
    · rw [if_neg (by simpa using hE)]
      have hJp : s.prov.J = FMat.ofMat J := h.prov.1.resolve_left hE
      cases hpr : s.prev with
      | none =>
        dsimp only
        rw [bind_ok]
        have := hend s.prov h.prov hJp
        rw [hpr] at this
        exact this
      | some xf =>
        obtain ⟨x, f⟩ := xf
        obtain ⟨dxv, df, a1, a2, -, a3⟩ := hupd x f hpr hE
        dsimp only
        rw [a1, bind_ok, a2, bind_ok, hx]
        rcases a3 with ⟨-, hz, hdiv⟩ | ⟨-, hb⟩
        · unfold broydenUpdate
          rw [hdiv]
          exact ⟨rfl, x, f, rfl, hz⟩
        · rw [hb, bind_ok, bind_ok]
          have := hend { s.prov with J := s.prov.J } h.prov hJp
          rw [hpr] at this
          exact this
  | fakeBroyden =>
    unfold Dir.direction Dir.fakeBroyden
    dsimp only
    obtain ⟨lu1, d1, d2⟩ := hsetf s.lu h.lu
    obtain ⟨lu2, d, e1, e2, e3, e4⟩ := hsolve lu1 d2
    have hend : ∀ p : Prov K, ProvInv J p → p.J = FMat.ofMat J →
        Post (do
          let lu ← setOrFast s.lu p.J
          let r ← solveNeg lu f0
          .ok ({ s with prov := p, lu := r.1, prev := some (x0, f0) }, r.2) : Res (Dir K × List K))
        (fun r => DirInv n A b J hS r.1 ∧ r.2.length = n ∧
          (LU.matrixOf J.data n).mulVec (fun i => - r.2.getD i 0) = LU.vec f0 n)
        (fun e => e = .divZero ∧ ∃ x f, s.prev = some (x, f) ∧
          ∑ i ∈ Finset.range n, (x0.getD i 0 - x.getD i 0) * (x0.getD i 0 - x.getD i 0) = 0) := by
      intro p hp1 hp2
      rw [hp2, d1, bind_ok, e1, bind_ok]
      exact ⟨⟨hp1, Or.inr e2, hprev'⟩, e3, e4⟩
    by_cases hE : s.prov.J.data = []
    · rw [if_pos (by rw [hE]; rfl), c1, bind_ok]
      exact hend p' c4 c3
    · rw [if_neg (by simpa using hE)]
      have hJp : s.prov.J = FMat.ofMat J := h.prov.1.resolve_left hE
      cases hpr : s.prev with
      | none =>
        dsimp only
        rw [bind_ok]
        have := hend s.prov h.prov hJp
        rw [hpr] at this
        exact this
      | some xf =>
        obtain ⟨x, f⟩ := xf
        obtain ⟨dxv, df, a1, a2, -, a3⟩ := hupd x f hpr hE
        dsimp only
        rw [a1, bind_ok, a2, bind_ok]
        rcases a3 with ⟨-, hz, hdiv⟩ | ⟨hb, -⟩
        · unfold fakeBroydenUpdate
          rw [hdiv]
          exact ⟨rfl, x, f, rfl, hz⟩
        · rw [hb, bind_ok, bind_ok]
          have := hend { s.prov with J := s.prov.J } h.prov hJp
          rw [hpr] at this
          exact this
  | hart => exact hk.elim
  | lazy _ => exact hk.elim

theorem used_inv {n : Nat} {A : Nat → Nat → K} {b : Nat → K} {dx : K} (hdx : dx ≠ 0) {J : Mat K}
    (hJ : IsJac n A b dx J) (hA : Solvable n A) (hS : LU.Stencil n J.data) {k : DirKind} (hk : k.Exact)
    {pk : ProvKind} {s : Dir K} (h : Used k pk (affine n A b) dx s) : DirInv n A b J hS s := by
  induction h with
  | new => exact ⟨⟨Or.inl rfl, fun _ h => absurd rfl h⟩, Or.inl ⟨rfl, rfl⟩, fun _ _ h => by cases h⟩
  | reset hard _ ih => exact reset_inv ih k hard
  | report success _ ih =>
    unfold Dir.reportSuccess
    cases k <;> first | exact ih | exact hk.elim
  | @call s s' x0 f0 d it _ hx hf hdir ih =>
    have := direction_inv hdx hJ hA hS hk ih hx hf it
    rw [hdir] at this
    exact this.1

/-- C24: on an affine system `A x = b` with nonzero leading minors and a pattern that satisfies the fill
condition, every direction computed by the simple, constant-Jacobian, Broyden or stencil-preserving
Broyden direction leads exactly to the solution, with either Jacobian provider, from every point and
after any sequence of earlier calls; a Broyden-type direction divides by zero instead only if the point
is the previous one. -/
theorem C24_newton {n : Nat} {A : Nat → Nat → K} {b : Nat → K} {dx : K} (hdx : dx ≠ 0)
    (hA : Solvable n A) {k : DirKind} (hk : k = .simple ∨ k = .const ∨ k = .broyden ∨ k = .fakeBroyden)
    {pk : ProvKind} {s : Dir K} (h : Used k pk (affine n A b) dx s) {x0 f0 : List K}
    (hx : x0.length = n) (hf : (affine n A b).map x0 = .ok f0) (it : Nat)
    (hprev : ∀ x f, s.prev = some (x, f) →
      ∑ i ∈ Finset.range n, (x0.getD i 0 - x.getD i 0) * (x0.getD i 0 - x.getD i 0) ≠ 0) :
    ∃ s' d, s.direction k (affine n A b) dx none x0 f0 it = .ok (s', d) ∧
      (affine n A b).map (List.zipWith (· + ·) x0 d) = .ok (List.replicate n 0) := by
  have hk' : k.Exact := by
    rcases hk with rfl | rfl | rfl | rfl <;> trivial
  obtain ⟨J, hJ⟩ := exists_jac n A b hdx
  obtain ⟨hS, -, -, -⟩ := jac_stencil hJ hA
  have hpost := direction_inv hdx hJ hA hS hk' (used_inv hdx hJ hA hS hk' h) hx hf it
  cases hdir : s.direction k (affine n A b) dx none x0 f0 it with
  | error e =>
    rw [hdir] at hpost
    obtain ⟨-, x, f, h1, h2⟩ := hpost
    exact absurd h2 (hprev x f h1)
  | ok r =>
    obtain ⟨s', d⟩ := r
    rw [hdir] at hpost
    obtain ⟨-, h1, h2⟩ := hpost
    refine ⟨s', d, rfl, ?_⟩
    dsimp only at h1 h2
    rw [affine_ok (by simp [hx, h1])]
    congr 1
    apply ext_getD (by simp)
    intro i hi
    have hi : i < n := by simpa using hi
    rw [getD_map_range hi]
    have hrep : (List.replicate n (0 : K)).getD i 0 = 0 := by
      simp [List.getD_eq_getElem?_getD, List.getElem?_replicate]
      split <;> rfl
    rw [hrep]
    have hz : ∀ c ∈ Finset.range n, A i c * (List.zipWith (· + ·) x0 d).getD c 0
        = A i c * x0.getD c 0 + A i c * d.getD c 0 := by
      intro c hc
      have hc := Finset.mem_range.1 hc
      have h3 : c < x0.length := by omega
      have h4 : c < d.length := by omega
      simp [List.getD_eq_getElem?_getD, h3, h4]
      ring
    rw [Finset.sum_congr rfl hz, Finset.sum_add_distrib]
    have h5 := congrFun h2 ⟨i, hi⟩
    unfold Matrix.mulVec dotProduct at h5
    have h6 : ∀ j : Fin n, LU.matrixOf J.data n ⟨i, hi⟩ j = A i j := by
      intro j
      show LU.entry J.data i j = A i j
      rw [entry_eq, hJ.values i j hi j.2]
    simp only [h6] at h5
    have h7 : LU.vec f0 n ⟨i, hi⟩ = (∑ c ∈ Finset.range n, A i c * x0.getD c 0) - b i := by
      rw [affine_ok hx] at hf
      cases hf
      show ((List.range n).map _).getD i 0 = _
      rw [getD_map_range hi]
    rw [h7] at h5
    have h8 : ∑ x : Fin n, A i x * -d.getD x 0 = - ∑ c ∈ Finset.range n, A i c * d.getD c 0 := by
      rw [Finset.sum_range, ← Finset.sum_neg_distrib]
      apply Finset.sum_congr rfl
      intro j _
      ring
    rw [h8] at h5
    linear_combination -h5

end

/-! ### Concrete cases -/

/-- A system with a full matrix -/
def exA : Nat → Nat → ℚ := fun r c => if r = c then 2 else 1

theorem exA_solvable : Solvable 2 exA := by
  refine ⟨?_, ?_⟩
  · intro k hk
    interval_cases k
    · simp
    · simp [exA]
    · rw [Matrix.det_fin_two]
      simp [exA]
      norm_num
  · intro r c _ hc _
    refine ⟨c, le_refl _, hc, ?_⟩
    unfold exA
    split <;> norm_num

/-- The hypotheses of `C24_newton` are met, at a new object and after a call, a reset and a report. -/
example : ∃ s' d, (Dir.new (Prov.new .sparse)).direction .broyden (affine 2 exA fun r => r) 1 none [1, 2]
      [4, 4] 0 = .ok (s', d) ∧
    (affine 2 exA fun r => r).map (List.zipWith (· + ·) [1, 2] d) = .ok (List.replicate 2 0) :=
  C24_newton (by norm_num) exA_solvable (Or.inr (Or.inr (Or.inl rfl))) .new rfl
    (by decide +kernel) 0
    (fun _ _ h => by cases h)

example {s : Dir ℚ} (h : Used .fakeBroyden .sparse (affine 2 exA fun r => r) 1 s) {d : List ℚ} {s1 : Dir ℚ}
    (h1 : s.direction .fakeBroyden (affine 2 exA fun r => r) 1 none [1, 2] [4, 4] 0 = .ok (s1, d)) :
    ∃ s2 e, ((s1.reportSuccess .fakeBroyden true).reset .fakeBroyden false).direction .fakeBroyden
        (affine 2 exA fun r => r) 1 none [0, 0] [0, -1] 5 = .ok (s2, e) ∧
      (affine 2 exA fun r => r).map (List.zipWith (· + ·) [0, 0] e) = .ok (List.replicate 2 0) :=
  C24_newton (by norm_num) exA_solvable (Or.inr (Or.inr (Or.inr rfl)))
    (.reset false (.report true (.call h rfl
      (by decide +kernel) h1))) rfl
    (by decide +kernel) 5
    (fun _ _ h => by cases h)

/-- A matrix outside the fill condition -/
def exFill : Nat → Nat → ℚ := fun r c =>
  if r = c ∨ (r = 0 ∧ c = 2) ∨ (r = 1 ∧ c = 0) then 1 else 0

/-- The fill condition in C24 cannot be left out: all leading minors are nonzero, the first call returns,
but the direction does not lead to the solution. -/
theorem C24_fill_false : (∀ k, k ≤ 3 → (Matrix.of (fun i j : Fin k => exFill i j)).det ≠ 0) ∧
    ∃ s' d, (Dir.new (Prov.new .default)).direction .simple (affine 3 exFill fun r => if r = 2 then 1 else 0)
        1 none [0, 0, 0] [0, 0, -1] 0 = .ok (s', d) ∧
      (affine 3 exFill fun r => if r = 2 then 1 else 0).map [0, 0, 0] = .ok [0, 0, -1] ∧
      (affine 3 exFill fun r => if r = 2 then 1 else 0).map (List.zipWith (· + ·) [0, 0, 0] d)
        ≠ .ok [0, 0, 0] := by
  constructor
  · intro k hk
    interval_cases k
    · simp
    · simp [exFill]
    · rw [Matrix.det_fin_two]
      simp [exFill]
    · rw [Matrix.det_fin_three]
      simp [exFill]
  · obtain ⟨⟨s', d⟩, h1, h2⟩ := Verif.Res.exists_of_test
      (r := (Dir.new (Prov.new .default)).direction .simple
        (affine 3 exFill fun r => if r = 2 then 1 else 0) 1 none [0, 0, 0] [0, 0, -1] 0)
      (p := fun r => decide (
        (affine 3 exFill fun r => if r = 2 then 1 else 0).map [0, 0, 0] = .ok [0, 0, -1] ∧
        (affine 3 exFill fun r => if r = 2 then 1 else 0).map (List.zipWith (· + ·) [0, 0, 0] r.2)
          ≠ .ok [0, 0, 0])) (by decide +kernel)
    exact ⟨s', d, h1, of_decide_eq_true h2⟩

end Verif.Alg
