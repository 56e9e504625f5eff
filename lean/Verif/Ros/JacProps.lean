import Verif.Ros.BaseProps

/-! # C37–C39: linear systems, Jacobian and cached factorizations of the Rosenbrock solvers -/

namespace Verif.Ros

open Verif.Res Verif.Alg Verif.Implicit Verif.Vec Verif.Sparse

set_option linter.unusedSectionVars false

variable {K : Type} [Field K] [DecidableEq K]

/-! ### C38: the Jacobian -/

/-- The values of the right-hand side at the states with one component changed by `dx` -/
def Shifts (rhs : List K → Res (List K)) (dx : K) (x0 : List K) (n : Nat) (f : Nat → List K) : Prop :=
  ∀ i, i < n → rhs (x0.set i (x0.getD i 0 + dx)) = .ok (f i) ∧ (f i).length = n

theorem set_set_self {x0 : List K} {i : Nat} (hi : i < x0.length) (v : K) :
    (x0.set i v).set i (x0.getD i 0) = x0 := by
  rw [List.set_set]
  apply List.ext_getElem?
  intro j
  rw [List.getElem?_set]
  split
  · rename_i h
    subst h
    rw [List.getD_eq_getElem?_getD, List.getElem?_eq_getElem hi]
    rfl
  · rfl

theorem makeCol_ok {b : Base K} {rhs : List K → Res (List K)} {dx : K} (hdx : dx ≠ 0) {x0 f0 : List K}
    (hn : b.n2 ≤ b.n) (hx : x0.length = b.n) (hl0 : f0.length = b.n) {f : Nat → List K} (hf : Shifts rhs dx x0 b.n f)
    {istart i : Nat} (hi : i < b.n) {d : Data K} (hd : Increasing d) :
    ∃ d', b.makeCol rhs dx x0 f0 istart i (x0, d) = .ok (x0, d') ∧ Increasing d' ∧
      ∀ r c, Data.find d' (r, c) = if c = i - istart ∧ r < b.n - b.n2 ∧
        (f i).getD (b.n2 + r) 0 - f0.getD (b.n2 + r) 0 ≠ 0
        then some (((f i).getD (b.n2 + r) 0 - f0.getD (b.n2 + r) 0) / dx) else Data.find d (r, c) := by
  obtain ⟨h1, h2⟩ := hf i hi
  have hp := loop_post (lo := b.n2) (hi := b.n) (s := d) (E := fun _ => False)
    (f := fun j d => do
      let a ← at' (f i) j
      let a0 ← at' f0 j
      if a - a0 = 0 then .ok d
      else do
        let q ← Res.div (a - a0) dx
        .ok (Data.set d (j - b.n2, i - istart) q))
    (fun k d' => Increasing d' ∧ ∀ r c, Data.find d' (r, c) = if c = i - istart ∧ r < k - b.n2 ∧
        (f i).getD (b.n2 + r) 0 - f0.getD (b.n2 + r) 0 ≠ 0
        then some (((f i).getD (b.n2 + r) 0 - f0.getD (b.n2 + r) 0) / dx) else Data.find d (r, c))
    hn ⟨hd, fun r c => by rw [if_neg (by omega)]⟩ (by
      rintro j d1 hj1 hj2 ⟨g1, g2⟩
      rw [at_lt (by omega), bind_ok, at_lt (by omega), bind_ok]
      have hjr : b.n2 + (j - b.n2) = j := by omega
      by_cases hz : (f i).getD j 0 - f0.getD j 0 = 0
      · rw [if_pos hz]
        refine ⟨g1, fun r c => ?_⟩
        rw [g2]
        by_cases hr : r = j - b.n2
        · rw [if_neg (by rintro ⟨-, -, h⟩; rw [hr, hjr] at h; exact h hz),
            if_neg (by rintro ⟨-, -, h⟩; rw [hr, hjr] at h; exact h hz)]
        · have : r < j - b.n2 ↔ r < j + 1 - b.n2 := by omega
          simp only [this]
      · rw [if_neg hz]
        unfold Res.div
        rw [if_neg hdx, bind_ok]
        refine ⟨Data.inc_set g1 _ _, fun r c => ?_⟩
        rw [Data.find_set g1, g2]
        by_cases hrc : r = j - b.n2 ∧ c = i - istart
        · obtain ⟨rfl, rfl⟩ := hrc
          rw [if_pos rfl, hjr, if_pos ⟨rfl, by omega, hz⟩]
        · rw [if_neg (fun h => hrc ⟨congrArg Prod.fst h, congrArg Prod.snd h⟩)]
          refine if_congr ?_ rfl rfl
          constructor
          · rintro ⟨a1, a2, a3⟩; exact ⟨a1, by omega, a3⟩
          · rintro ⟨a1, a2, a3⟩; exact ⟨a1, by omega, a3⟩)
  obtain ⟨d', e1, e2, e3⟩ := post_false_iff.1 hp
  refine ⟨d', ?_, e2, e3⟩
  unfold Base.makeCol
  dsimp only
  rw [at_lt (by omega), bind_ok]
  unfold atSet
  rw [if_pos (by omega), bind_ok, h1, bind_ok, bind_ok, if_pos (by simp; omega), bind_ok,
    set_set_self (by omega), e1]
  rfl

theorem makeJ_ok {b : Base K} {rhs : List K → Res (List K)} {dx : K} (hdx : dx ≠ 0) {x0 f0 : List K}
    (hn : b.n = 2 * b.n2 + b.n1) (hx : x0.length = b.n) (hl0 : f0.length = b.n) {f : Nat → List K}
    (hf : Shifts rhs dx x0 b.n f) {istart isize : Nat} (hle : istart ≤ isize) (hsz : isize ≤ b.n) :
    ∃ d, b.makeJ rhs dx x0 f0 istart isize = .ok ⟨(b.n2 + b.n1, b.n2 + b.n1), d⟩ ∧ Increasing d ∧
      ∀ r c, Data.find d (r, c) = if istart + c < isize ∧ r < b.n2 + b.n1 ∧
        (f (istart + c)).getD (b.n2 + r) 0 - f0.getD (b.n2 + r) 0 ≠ 0
        then some (((f (istart + c)).getD (b.n2 + r) 0 - f0.getD (b.n2 + r) 0) / dx) else none := by
  have hp := loop_post (lo := istart) (hi := isize) (s := ((x0, []) : List K × Data K)) (E := fun _ => False)
    (f := b.makeCol rhs dx x0 f0 istart)
    (fun k s => s.1 = x0 ∧ Increasing s.2 ∧ ∀ r c, Data.find s.2 (r, c) = if istart + c < k ∧ r < b.n2 + b.n1 ∧
        (f (istart + c)).getD (b.n2 + r) 0 - f0.getD (b.n2 + r) 0 ≠ 0
        then some (((f (istart + c)).getD (b.n2 + r) 0 - f0.getD (b.n2 + r) 0) / dx) else none)
    hle ⟨rfl, List.Pairwise.nil, fun r c => by rw [if_neg (by omega)]; rfl⟩ (by
      rintro k ⟨x, d⟩ hk1 hk2 ⟨g1, g2, g3⟩
      dsimp only at g1 g2 g3
      subst g1
      obtain ⟨d', e1, e2, e3⟩ := makeCol_ok hdx (by omega) hx hl0 hf (istart := istart) (i := k) (by omega) g2
      refine Post.of_ok e1 ⟨rfl, e2, fun r c => ?_⟩
      dsimp only
      rw [e3, g3]
      by_cases hc : c = k - istart
      · have hk : istart + c = k := by omega
        have hr : r < b.n - b.n2 ↔ r < b.n2 + b.n1 := by omega
        rw [hk]
        by_cases hz : r < b.n2 + b.n1 ∧ (f k).getD (b.n2 + r) 0 - f0.getD (b.n2 + r) 0 ≠ 0
        · rw [if_pos ⟨hc, hr.2 hz.1, hz.2⟩, if_pos ⟨by omega, hz⟩]
        · rw [if_neg (fun h => hz ⟨hr.1 h.2.1, h.2.2⟩), if_neg (fun h => hz h.2), if_neg (fun h => hz h.2)]
      · rw [if_neg (fun h => hc h.1)]
        have : istart + c < k ↔ istart + c < k + 1 := by omega
        simp only [this])
  obtain ⟨⟨x, d⟩, e1, -, e2, e3⟩ := post_false_iff.1 hp
  refine ⟨d, ?_, e2, e3⟩
  unfold Base.makeJ
  rw [e1]
  rfl

theorem get_of_find {d : Data K} {p : Prop} [Decidable p] {i : Index} {v : K}
    (h : Data.find d i = if p then some v else none) : Data.get d i = if p then v else 0 := by
  rw [Data.get_eq, h]
  split <;> rfl

/-- What `buildJacobian` does -/
theorem build_ok {b : Base K} {rhs : List K → Res (List K)} {dx : K} (hdx : dx ≠ 0) {x0 f0 : List K}
    (hn : b.n = 2 * b.n2 + b.n1) (hbuf : b.buf.length = b.n2 + b.n1) (hx : x0.length = b.n)
    (hl0 : f0.length = b.n) {f : Nat → List K} (hf : Shifts rhs dx x0 b.n f) :
    ∃ b', b.buildJacobian rhs dx x0 f0 = .ok b' ∧ b'.Ok ∧ b'.n = b.n ∧ b'.n2 = b.n2 ∧ b'.n1 = b.n1 ∧
      b'.cur = none ∧ b'.hd4W = 0 ∧
      (∀ r c, Data.get b'.J1.data (r, c) = if c < b.n1 ∧ r < b.n2 + b.n1
        then ((f (b.n2 + c)).getD (b.n2 + r) 0 - f0.getD (b.n2 + r) 0) / dx else 0) ∧
      ∀ r c, Data.get b'.J2.data (r, c) = if c < b.n2 ∧ r < b.n2 + b.n1
        then ((f c).getD (b.n2 + r) 0 - f0.getD (b.n2 + r) 0) / dx else 0 := by
  obtain ⟨d1, a1, a2, a3⟩ := makeJ_ok hdx hn hx hl0 hf (istart := b.n2) (isize := b.n2 + b.n1) (by omega) (by omega)
  obtain ⟨d2, c1, c2, c3⟩ := makeJ_ok hdx hn hx hl0 hf (istart := 0) (isize := b.n2) (by omega) (by omega)
  simp only [Nat.zero_add] at c3
  have hin1 : ∀ e ∈ d1, e.1.1 < b.n2 + b.n1 ∧ e.1.2 < b.n2 + b.n1 := by
    rintro ⟨⟨r, c⟩, v⟩ he
    have := (Data.mem_iff a2).1 he
    rw [a3] at this
    split at this
    · rename_i h
      exact ⟨h.2.1, by simp only; omega⟩
    · cases this
  have hin2 : ∀ e ∈ d2, e.1.1 < b.n2 + b.n1 ∧ e.1.2 < b.n2 := by
    rintro ⟨⟨r, c⟩, v⟩ he
    have := (Data.mem_iff c2).1 he
    rw [c3] at this
    split at this
    · rename_i h
      exact ⟨h.2.1, h.1⟩
    · cases this
  obtain ⟨m0, hm0⟩ : ∃ m0, m0 = (Mat.ofSize (K := K) (b.n2 + b.n1) (b.n2 + b.n1)).addScaledIdentity 1 := ⟨_, rfl⟩
  have i0 : Increasing m0.data ∧ m0.size = (b.n2 + b.n1, b.n2 + b.n1) ∧
      ∀ r c, Data.hasIndex m0.data (r, c) = decide (r = c ∧ r < b.n2 + b.n1) := by
    let es : List (Index × K) := (List.range (b.n2 + b.n1)).map (fun i => ((i, i), 1))
    have h1 : m0 = (Mat.ofSize (K := K) (b.n2 + b.n1) (b.n2 + b.n1)).add es := by
      rw [hm0]
      unfold Mat.addScaledIdentity Mat.add
      simp only [es, List.foldl_map]
      rfl
    have hd : (es.map Prod.fst).Nodup := by
      simp only [es, List.map_map]
      exact List.nodup_range.map (fun x y hxy => by simpa using hxy)
    have hs := C10_add_sub (Mat.ofSize (K := K) (b.n2 + b.n1) (b.n2 + b.n1)) List.Pairwise.nil es hd
    refine ⟨h1 ▸ (hs (0, 0)).2.2.2.2.1, by rw [hm0]; rfl, fun r c => ?_⟩
    rw [h1, (hs (r, c)).2.2.1]
    have : Data.hasIndex (Mat.ofSize (K := K) (b.n2 + b.n1) (b.n2 + b.n1)).data (r, c) = false := rfl
    rw [this, Bool.false_or]
    unfold Data.hasIndex
    by_cases h : r = c ∧ r < b.n2 + b.n1
    · rw [decide_eq_true h]
      have hm : ((r, c), (1 : K)) ∈ es := by
        simp only [es, List.mem_map, List.mem_range]
        exact ⟨r, h.2, by rw [← h.1]⟩
      rw [Data.find_of_mem_unique hd hm]
      rfl
    · rw [decide_eq_false h, Data.find_none_iff.2]
      · rfl
      · rintro e he hej
        simp only [es, List.mem_map, List.mem_range] at he
        obtain ⟨i, hi, rfl⟩ := he
        obtain ⟨rfl, rfl⟩ := Prod.mk.inj hej
        exact h ⟨rfl, hi⟩
  have i1 := C10_add_sub m0 i0.1 d1 (Data.inc_nodup a2)
  have i2 := C10_add_sub (m0.add d1) (i1 (0, 0)).2.2.2.2.1 d2 (Data.inc_nodup c2)
  refine ⟨{ b with
    J1 := ⟨(b.n2 + b.n1, b.n2 + b.n1), d1⟩, J2 := ⟨(b.n2 + b.n1, b.n2 + b.n1), d2⟩,
    W := FMat.ofMat ((m0.add d1).add d2), cache := [], cur := none, hd4W := 0 }, ?_,
    ⟨⟨hn, a2, rfl, hin1, c2, hin2, hbuf⟩, ⟨(i2 (0, 0)).2.2.2.2.1, i0.2.1, fun r c => ?_⟩,
      (fun e he => by cases he), Nat.zero_le _, Or.inl ⟨rfl, rfl⟩⟩, rfl, rfl, rfl, rfl, rfl, ?_, ?_⟩
  · unfold Base.buildJacobian
    rw [a1, bind_ok, c1, bind_ok, hm0]
  · show (Data.find ((m0.add d1).add d2).data (r, c)).isSome ↔ _
    have : (Data.find ((m0.add d1).add d2).data (r, c)).isSome =
      Data.hasIndex ((m0.add d1).add d2).data (r, c) := rfl
    rw [this, (i2 (r, c)).2.2.1, (i1 (r, c)).2.2.1, i0.2.2]
    unfold Base.Pattern Data.hasIndex
    simp only [Bool.or_eq_true, decide_eq_true_eq]
    constructor
    · rintro ((⟨h1, h2⟩ | h) | h)
      · exact ⟨h2, h1 ▸ h2, Or.inl h1⟩
      · obtain ⟨v, hv⟩ := Option.isSome_iff_exists.1 h
        have := hin1 _ ((Data.mem_iff a2).2 hv)
        exact ⟨this.1, this.2, Or.inr (Or.inl h)⟩
      · obtain ⟨v, hv⟩ := Option.isSome_iff_exists.1 h
        have := hin2 _ ((Data.mem_iff c2).2 hv)
        dsimp only at this
        exact ⟨this.1, by omega, Or.inr (Or.inr h)⟩
    · rintro ⟨h1, h2, h3 | h3 | h3⟩
      · exact Or.inl (Or.inl ⟨h3, h1⟩)
      · exact Or.inl (Or.inr h3)
      · exact Or.inr h3
  · intro r c
    dsimp only
    rw [get_of_find (a3 r c)]
    by_cases h : c < b.n1 ∧ r < b.n2 + b.n1
    · rw [if_pos h]
      split
      · rfl
      · rename_i h'
        have : (f (b.n2 + c)).getD (b.n2 + r) 0 - f0.getD (b.n2 + r) 0 = 0 := by
          by_contra hne
          exact h' ⟨by omega, h.2, hne⟩
        rw [this, zero_div]
    · rw [if_neg h, if_neg (fun h' => h ⟨by omega, h'.2.1⟩)]
  · intro r c
    dsimp only
    rw [get_of_find (c3 r c)]
    by_cases h : c < b.n2 ∧ r < b.n2 + b.n1
    · rw [if_pos h]
      split
      · rfl
      · rename_i h'
        have : (f c).getD (b.n2 + r) 0 - f0.getD (b.n2 + r) 0 = 0 := by
          by_contra hne
          exact h' ⟨h.1, h.2, hne⟩
        rw [this, zero_div]
    · rw [if_neg h, if_neg (fun h' => h ⟨h'.1, h'.2.1⟩)]

end Verif.Ros
