import Verif.Sparse.Views
import Mathlib.Algebra.Order.BigOperators.Group.List
import Mathlib.Algebra.Order.Ring.Abs
import Mathlib.Data.Matrix.Mul
import Mathlib.Algebra.Order.Ring.Rat
import Mathlib.Tactic.NormNum

/-! # Properties C08-C12, C63, C64: sparse matrices and views -/

set_option linter.unusedSectionVars false

namespace Verif.Sparse

open Verif.Res
open scoped BigOperators

variable {K : Type}

/-! ## C08 -/

section
variable [Ring K]

theorem step_spec (m : Mat K) (h : Increasing m.data) (op : MOp K) :
    Increasing (op.run m).data ∧
    ((op.run m).size, (op.run m).data.find) = op.spec (m.size, m.data.find) := by
  cases op with
  | set i v =>
    refine ⟨Data.inc_set h i v, Prod.ext rfl (funext fun j => ?_)⟩
    exact Data.find_set h i j v
  | inc i v =>
    refine ⟨Data.inc_modify h i _, Prod.ext rfl (funext fun j => ?_)⟩
    exact Data.find_modify h i j _
  | remove i =>
    refine ⟨Data.inc_removeAt h i, Prod.ext rfl (funext fun j => ?_)⟩
    exact Data.find_removeAt h i j
  | clear => exact ⟨by simp [MOp.run, Data.clear, Increasing], rfl⟩
  | resize z =>
    simp only [MOp.run, MOp.spec, Mat.resize]
    by_cases hz : m.size = z
    · rw [if_neg (by simpa using hz)]
      refine ⟨h, Prod.ext hz (funext fun j => ?_)⟩
      simp [hz]
    · rw [if_pos hz]
      simp only [Data.resize_eq]
      refine ⟨Data.inc_filter h _, Prod.ext rfl (funext fun j => ?_)⟩
      simp only
      rw [Data.find_filter m.data (fun i => decide (i.1 < z.1 ∧ i.2 < z.2))]
      simp [Ne.symm hz]
  | makeZero =>
    refine ⟨Data.inc_map h (fun _ => (0 : K)), Prod.ext rfl (funext fun j => ?_)⟩
    exact Data.find_map m.data (fun _ => (0 : K)) j
  | assign z es =>
    obtain ⟨h1, h2, _⟩ := find_copyFrom (m := ([] : Data K)) (es := es)
    exact ⟨h1, Prod.ext rfl (funext fun j => h2 j)⟩

/-- C08. After any sequence of calls, all accessors and the enumeration describe one partial
function, the one obtained by applying the plain meaning of each call, and the elements are
enumerated in strictly increasing order. -/
theorem C08_history (rows cols : Nat) (ops : List (MOp K)) :
    let m := ops.foldl MOp.run (Mat.ofSize rows cols)
    let s := ops.foldl MOp.spec ((rows, cols), fun _ => none)
    m.size = s.1 ∧
    (∀ i, m.data.get i = (s.2 i).getD 0) ∧
    (∀ i, m.data.hasIndex i = (s.2 i).isSome) ∧
    (∀ i, m.data.checkedGet i = ((s.2 i).getD 0, (s.2 i).isSome)) ∧
    (∀ i v, (i, v) ∈ m.data ↔ s.2 i = some v) ∧
    Increasing m.data := by
  suffices H : ∀ (m : Mat K), Increasing m.data →
      Increasing (ops.foldl MOp.run m).data ∧
      ((ops.foldl MOp.run m).size, (ops.foldl MOp.run m).data.find)
        = ops.foldl MOp.spec (m.size, m.data.find) by
    obtain ⟨h1, h2⟩ := H (Mat.ofSize rows cols) (by simp [Mat.ofSize, Increasing])
    have h3 : ((Mat.ofSize rows cols : Mat K).size, (Mat.ofSize rows cols : Mat K).data.find)
        = ((rows, cols), fun _ => none) := rfl
    rw [h3] at h2
    intro m s
    have hs : s.1 = m.size := (congrArg Prod.fst h2).symm
    have hf : s.2 = m.data.find := (congrArg Prod.snd h2).symm
    rw [hs, hf]
    refine ⟨rfl, fun i => Data.get_eq _ i, fun i => rfl, fun i => ?_,
      fun i v => Data.mem_iff h1, h1⟩
    rw [Data.checkedGet_eq, Data.get_eq]; rfl
  induction ops with
  | nil => exact fun m h => ⟨h, rfl⟩
  | cons op ops ih =>
    intro m h
    obtain ⟨h1, h2⟩ := step_spec m h op
    obtain ⟨h3, h4⟩ := ih (op.run m) h1
    exact ⟨h3, by rw [List.foldl_cons, List.foldl_cons, h4, h2]⟩

/-- Instance: a history through every kind of call; what is left is a zero kept by `makeZero`
inside the new size plus the value set afterwards. -/
example : (([.set (2, 3) 5, .set (0, 1) 7, .inc (0, 1) 1, .inc (1, 1) 4, .remove (1, 1),
      .resize (1, 2), .makeZero, .set (0, 0) 9] : List (MOp ℚ)).foldl MOp.run
      (Mat.ofSize 3 4)) = ⟨(1, 2), [((0, 0), 9), ((0, 1), 0)]⟩ := by decide +kernel

/-- C08, the stored elements stay inside the declared size if each element written is inside the
size at that time; an assignment must bring elements inside its own size. -/
def MOp.Inside (size : Index) : MOp K → Prop
  | .set i _ => i.1 < size.1 ∧ i.2 < size.2
  | .inc i _ => i.1 < size.1 ∧ i.2 < size.2
  | .assign z es => ∀ e ∈ es, e.1.1 < z.1 ∧ e.1.2 < z.2
  | _ => True

def insideAll : Mat K → List (MOp K) → Prop
  | _, [] => True
  | m, op :: ops => op.Inside m.size ∧ insideAll (op.run m) ops

theorem keys_setAll {P : Index → Prop} (es : List (Index × K)) (m : Data K)
    (hm : ∀ e ∈ m, P e.1) (hes : ∀ e ∈ es, P e.1) :
    ∀ e ∈ es.foldl (fun (m : Data K) e => m.set e.1 e.2) m, P e.1 := by
  induction es generalizing m with
  | nil => exact hm
  | cons e es ih =>
    rw [List.foldl_cons]
    exact ih _ (Data.modify_keys (hes e (by simp)) hm) (fun x hx => hes x (by simp [hx]))

theorem step_wf (m : Mat K) (h : Wf m) (op : MOp K) (hop : op.Inside m.size) :
    Wf (op.run m) := by
  refine ⟨(step_spec m h.inc op).1, ?_⟩
  cases op with
  | set i v => exact Data.modify_keys (P := fun i => i.1 < m.size.1 ∧ i.2 < m.size.2) hop h.inside
  | inc i v => exact Data.modify_keys (P := fun i => i.1 < m.size.1 ∧ i.2 < m.size.2) hop h.inside
  | remove i => exact fun e he => h.inside e (Data.removeAt_sub he)
  | clear => intro e he; simp [MOp.run, Data.clear] at he
  | resize z =>
    simp only [MOp.run, Mat.resize]
    split
    · intro e he
      simp only [Data.resize_eq, List.mem_filter] at he
      simpa using he.2
    · exact h.inside
  | makeZero =>
    intro e he
    simp only [MOp.run, Mat.makeZero, List.mem_map] at he
    obtain ⟨x, hx, rfl⟩ := he
    exact h.inside x hx
  | assign z es =>
    exact keys_setAll (P := fun i => i.1 < z.1 ∧ i.2 < z.2) es [] (by simp) hop

theorem C08_inside (m : Mat K) (h : Wf m) (ops : List (MOp K)) (hops : insideAll m ops) :
    Wf (ops.foldl MOp.run m) := by
  induction ops generalizing m with
  | nil => exact h
  | cons op ops ih => exact ih _ (step_wf m h op hops.1) hops.2

example : insideAll (Mat.ofSize 2 2 : Mat ℚ) [.set (1, 1) 3, .resize (1, 1), .inc (0, 0) 2] := by
  simp [insideAll, MOp.Inside, MOp.run, Mat.resize, Mat.ofSize]

/-- C08, `sizeFromData`: the least size that contains all stored elements. -/
theorem C08_sizeFromData (d : List (Index × K)) :
    (∀ e ∈ d, e.1.1 < (Mat.sizeFromData d).1 ∧ e.1.2 < (Mat.sizeFromData d).2) ∧
    ∀ z : Index, (∀ e ∈ d, e.1.1 < z.1 ∧ e.1.2 < z.2) →
      (Mat.sizeFromData d).1 ≤ z.1 ∧ (Mat.sizeFromData d).2 ≤ z.2 := by
  have H : ∀ (d : List (Index × K)) (s : Index),
      let t := d.foldl (fun s e => (max s.1 (e.1.1 + 1), max s.2 (e.1.2 + 1))) s
      (s.1 ≤ t.1 ∧ s.2 ≤ t.2) ∧ (∀ e ∈ d, e.1.1 < t.1 ∧ e.1.2 < t.2) ∧
      ∀ z : Index, s.1 ≤ z.1 → s.2 ≤ z.2 → (∀ e ∈ d, e.1.1 < z.1 ∧ e.1.2 < z.2) →
        t.1 ≤ z.1 ∧ t.2 ≤ z.2 := by
    intro d
    induction d with
    | nil => intro s; simp +contextual
    | cons e d ih =>
      intro s
      obtain ⟨h1, h2, h3⟩ := ih (max s.1 (e.1.1 + 1), max s.2 (e.1.2 + 1))
      simp only [List.foldl_cons]
      simp only at h1
      refine ⟨by omega, ?_, ?_⟩
      · intro x hx
        rcases List.mem_cons.1 hx with rfl | hx
        · omega
        · exact h2 x hx
      · intro z hz1 hz2 hz
        have := hz e (by simp)
        exact h3 z (by simp only; omega) (by simp only; omega) (fun x hx => hz x (by simp [hx]))
  obtain ⟨_, h2, h3⟩ := H d (0, 0)
  exact ⟨h2, fun z hz => h3 z (Nat.zero_le _) (Nat.zero_le _) hz⟩

example : Mat.sizeFromData ([((0, 4), 1), ((2, 1), 1)] : List (Index × ℚ)) = (3, 5) := by
  decide +kernel

/-- C08, `resizeFromData`: the matrix gets the least size that contains all its elements, and keeps all of them, even if some were
outside its size before. -/
theorem C08_resizeFromData (m : Mat K) :
    m.resizeFromData.data = m.data ∧
    (∀ e ∈ m.data, e.1.1 < m.resizeFromData.size.1 ∧ e.1.2 < m.resizeFromData.size.2) ∧
    ∀ z : Index, (∀ e ∈ m.data, e.1.1 < z.1 ∧ e.1.2 < z.2) → m.resizeFromData.size.1 ≤ z.1 ∧ m.resizeFromData.size.2 ≤ z.2 := by
  obtain ⟨h1, h2⟩ := C08_sizeFromData m.data
  have hs : m.resizeFromData.size = Mat.sizeFromData m.data := by
    unfold Mat.resizeFromData Mat.resize
    split
    · rfl
    · rename_i h; exact not_not.1 h
  refine ⟨?_, by rw [hs]; exact h1, by rw [hs]; exact h2⟩
  unfold Mat.resizeFromData Mat.resize
  split
  · show Data.resizeData m.data _ = m.data
    rw [Data.resize_eq, List.filter_eq_self]
    intro e he
    simpa using h1 e he
  · rfl

example : (⟨(1, 9), [((0, 4), 1), ((2, 1), 1)]⟩ : Mat ℚ).resizeFromData = ⟨(3, 5), [((0, 4), 1), ((2, 1), 1)]⟩ := by
  decide +kernel

/-! ## C09 -/

/-- C09. A fast matrix assigned from a matrix with increasing enumeration (any map-backed matrix,
by `C08_history`) answers every query as the source does. -/
theorem C09_queries (m : Data K) (h : Increasing m) (i : Index) :
    Fast.get (Fast.copyFrom m) i = m.get i ∧
    Fast.hasIndex (Fast.copyFrom m) i = m.hasIndex i ∧
    Fast.checkedGet (Fast.copyFrom m) i = m.checkedGet i := by
  obtain ⟨h1, h2, h3⟩ := Fast.checkedGet_eq (m := m) h i
  exact ⟨h2, h3, h1⟩

/-- C09, writing. `at(i) = v` succeeds exactly for stored positions, changes the value there and
no other, and keeps the set and order of stored positions; for other positions it throws. -/
theorem C09_write (m : Fast K) (h : Increasing m) (i : Index) (v : K) :
    (Data.hasIndex m i = true → ∃ m', Fast.set m i v = .ok m' ∧ Increasing m' ∧
      m'.map Prod.fst = m.map Prod.fst ∧
      ∀ j, Fast.get m' j = if j = i then v else Fast.get m j) ∧
    (Data.hasIndex m i = false → Fast.set m i v = .error (.exc "Element is not found")) := by
  constructor
  · intro hi
    obtain ⟨x, hx⟩ := Option.isSome_iff_exists.1 (show (Data.find m i).isSome from hi)
    obtain ⟨p, h1, h2⟩ := (Fast.search_value h).1 hx
    obtain ⟨hp, hpe⟩ := List.getElem?_eq_some_iff.1 h2
    have hkeys : (List.set m p (i, v)).map Prod.fst = m.map Prod.fst := by
      rw [List.map_set]
      apply List.ext_getElem?
      intro q
      by_cases hq : p = q
      · subst hq
        rw [List.getElem?_set_self (by simpa using hp)]
        simp [List.getElem?_eq_getElem hp, hpe]
      · rw [List.getElem?_set_ne hq]
    have hinc : Increasing (List.set m p (i, v)) := by
      unfold Increasing at h ⊢
      have a1 := List.pairwise_map (f := Prod.fst) (l := List.set m p (i, v))
        (R := fun a b : Index => a.1 < b.1 ∨ (a.1 = b.1 ∧ a.2 < b.2))
      have a2 := List.pairwise_map (f := Prod.fst) (l := m)
        (R := fun a b : Index => a.1 < b.1 ∨ (a.1 = b.1 ∧ a.2 < b.2))
      rw [← a1, hkeys, a2]
      exact h
    refine ⟨List.set m p (i, v), by unfold Fast.set; rw [h1], hinc, hkeys, fun j => ?_⟩
    rw [(Fast.checkedGet_eq hinc j).2.1, (Fast.checkedGet_eq h j).2.1]
    by_cases hj : j = i
    · rw [if_pos hj, hj, Data.get_eq, (Data.mem_iff (v := v) hinc).1]
      · rfl
      · exact List.mem_of_getElem? (List.getElem?_set_self hp)
    · rw [if_neg hj, Data.get_eq, Data.get_eq]
      congr 1
      cases hf : Data.find m j with
      | none =>
        rw [Data.find_none_iff] at hf ⊢
        rintro ⟨k, w⟩ hk
        rcases List.mem_or_eq_of_mem_set hk with hk | hk
        · exact hf _ hk
        · cases hk; exact Ne.symm hj
      | some w =>
        rw [← Data.mem_iff h] at hf
        rw [← Data.mem_iff hinc]
        obtain ⟨q, hq⟩ := List.getElem?_of_mem hf
        have hpq : p ≠ q := by
          rintro rfl
          rw [hq] at h2; cases h2; exact hj rfl
        apply List.mem_of_getElem? (i := q)
        rw [List.getElem?_set_ne hpq, hq]
  · intro hi
    have : Data.find m i = none := by
      simpa [Data.hasIndex] using hi
    unfold Fast.set
    rw [(Fast.search_none h).2 this]

example : (Fast.set ([((0, 1), 5), ((1, 0), 7), ((1, 2), 9)] : List (Index × ℚ)) (1, 0) 8).toOption
    = some [((0, 1), 5), ((1, 0), 8), ((1, 2), 9)] := by decide +kernel

/-- C09, limit: a fast matrix may also be assigned from a transposed view, whose enumeration is
not increasing; then stored elements are not found. -/
theorem C09_transposed_source_false :
    ∃ (m : Data ℚ) (i : Index) (v : ℚ), Increasing m ∧
      (i, v) ∈ Fast.copyFrom (Transpose.elems m) ∧ v ≠ 0 ∧
      Fast.get (Fast.copyFrom (Transpose.elems m)) i = 0 ∧
      Fast.hasIndex (Fast.copyFrom (Transpose.elems m)) i = false := by
  refine ⟨[((0, 1), 5), ((1, 0), 7)], (0, 1), 7, ?_, ?_, ?_, ?_, ?_⟩
  · unfold Increasing; simp
  all_goals decide +kernel

/-! ## C10 -/

section
variable [DecidableEq K]

/-- C10, matrix product: the mathematical product, stored exactly at its nonzero entries. -/
theorem C10_product (a b : Mat K) (n k p : Nat) (ha : Wf a) (hsa : a.size = (n, k))
    (hsb : b.size = (k, p)) (hk : k ≤ 2 ^ 32) :
    (a.mul b).size = (n, p) ∧ Wf (a.mul b) ∧
    dense (a.mul b) n p = dense a n k * dense b k p ∧
    ∀ i, (a.mul b).data.hasIndex i = true ↔ (a.mul b).data.get i ≠ 0 := by
  have hchk : ∀ i, (b.data.checkedGet i).2 = false → (b.data.checkedGet i).1 = 0 := by
    intro i
    rw [Data.checkedGet_eq, Data.get_eq]
    unfold Data.hasIndex
    cases b.data.find i <;> simp
  obtain ⟨h1, h2, h3⟩ := mulGen_find a.size.1 (fun r => a.data.row r) b.size.2
    (fun i => b.data.checkedGet i) hchk
  have hcol : ∀ e ∈ a.data, e.1.2 < k := fun e he => by
    have := (ha.inside e he).2; rw [hsa] at this; exact this
  have hrow := fun r => Data.row_eq ha.inc (fun e he => by have := hcol e he; omega) r
  have hval : ∀ r c, (((a.data.row r).map (fun e => e.2 * (b.data.checkedGet (e.1.2, c)).1)).sum : K)
      = ∑ q ∈ Finset.range k, a.data.get (r, q) * b.data.get (q, c) := by
    intro r c
    rw [hrow]
    simp only [Data.checkedGet_eq]
    exact row_sum ha.inc r k hcol (fun q => b.data.get (q, c))
  have hfind : ∀ j, (a.mul b).data.find j = if j.2 < p ∧ j.1 < n ∧
      (∑ q ∈ Finset.range k, a.data.get (j.1, q) * b.data.get (q, j.2)) ≠ 0 then
        some (∑ q ∈ Finset.range k, a.data.get (j.1, q) * b.data.get (q, j.2)) else none := by
    intro j
    have := h3 j
    simp only [hval, hsa, hsb] at this
    unfold Mat.mul
    rw [hsa, hsb]
    exact this
  refine ⟨by unfold Mat.mul; rw [h1, hsa, hsb], ⟨h2, ?_⟩, ?_, ?_⟩
  · rintro ⟨i, v⟩ he
    have hm := (Data.mem_iff h2).1 he
    have h4 := hfind i
    unfold Mat.mul at h4 ⊢
    rw [hm] at h4
    rw [h1, hsa, hsb]
    split at h4
    · rename_i hh; exact ⟨hh.2.1, hh.1⟩
    · cases h4
  · funext i j
    refine Eq.trans ?_ Matrix.mul_apply.symm
    show (a.mul b).data.get (i, j) = _
    rw [Data.get_eq, hfind]
    simp only [j.2, i.2, true_and]
    rw [← Fin.sum_univ_eq_sum_range (fun q => a.data.get (↑i, q) * b.data.get (q, ↑j))]
    simp only [dense]
    split
    · rfl
    · rename_i hz
      simp only [ne_eq, not_not] at hz
      rw [hz]; rfl
  · intro i
    unfold Data.hasIndex
    rw [Data.get_eq, hfind]
    split
    · rename_i hh; simpa using hh.2.2
    · simp

/-- Instance: a 2x3 by 3x2 product with a cancelling entry, which is not stored. -/
example : (Mat.mul (⟨(2, 3), [((0, 0), 1), ((0, 2), 2), ((1, 1), 3)]⟩ : Mat ℚ)
    ⟨(3, 2), [((0, 0), 4), ((0, 1), -2), ((1, 0), 5), ((2, 1), 1)]⟩)
    = ⟨(2, 2), [((0, 0), 4), ((1, 0), 15)]⟩ := by decide +kernel

end

/-- C10, matrix times vector. -/
theorem C10_mulVec (m : Mat K) (n k : Nat) (h : Wf m) (hs : m.size = (n, k)) (x : List K)
    (hx : k ≤ x.length) :
    ∃ y, m.mulVec x = .ok y ∧ y.length = n ∧
      vecOf y n = (dense m n k).mulVec (vecOf x k) := by
  obtain ⟨⟨r, c⟩, d⟩ := m
  cases hs
  obtain ⟨y, hy, hl, hv⟩ := mulLoop d x (List.replicate n 0) (fun i => i.1) (fun i => i.2)
    (fun e he => by simpa using (h.inside e he).1)
    (fun e he => lt_of_lt_of_le (h.inside e he).2 hx)
  refine ⟨y, ?_, by simpa using hl, ?_⟩
  · unfold Mat.mulVec Mat.mulVectRight
    rw [if_neg (by simp)]
    simpa using hy
  · funext i
    show y.getD i 0 = _
    rw [hv, sum_elems (Data.inc_nodup h.inc) (fun q v => if q.1 = i then v * x.getD q.2 0 else 0)
      (by simp) (Finset.range n ×ˢ Finset.range k)]
    · rw [Finset.sum_product, Finset.sum_eq_single (i : Nat)]
      · simp only [if_true]
        rw [← Fin.sum_univ_eq_sum_range (fun q => Data.get d (↑i, q) * x.getD q 0)]
        simp [Matrix.mulVec, dotProduct, dense, vecOf]
      · intro b _ hb
        simp [hb]
      · intro hi; simp at hi
    · intro e he
      have := h.inside e he
      simpa using this

example : (Mat.mulVec (⟨(2, 3), [((0, 0), 1), ((0, 2), 2), ((1, 1), 3)]⟩ : Mat ℚ)
    [5, 7, 11]).toOption = some [27, 21] := by decide +kernel

/-- C10, `+=` and `-=` with a matrix or view of other data: entrywise; stored positions are the
union. -/
theorem C10_add_sub (m : Mat K) (h : Increasing m.data) (es : List (Index × K))
    (hd : (es.map Prod.fst).Nodup) (j : Index) :
    (m.add es).data.get j = m.data.get j + Data.get es j ∧
    (m.sub es).data.get j = m.data.get j - Data.get es j ∧
    ((m.add es).data.hasIndex j = (m.data.hasIndex j || Data.hasIndex es j)) ∧
    ((m.sub es).data.hasIndex j = (m.data.hasIndex j || Data.hasIndex es j)) ∧
    Increasing (m.add es).data ∧ Increasing (m.sub es).data := by
  obtain ⟨a1, a2⟩ := find_foldl_modify h es (fun x => x)
  obtain ⟨s1, s2⟩ := find_foldl_modify h es (fun x => -x)
  simp only [← sub_eq_add_neg] at s1 s2
  have ea : (m.add es).data = es.foldl (fun (d : Data K) e => d.modify e.1 (fun x => x + e.2)) m.data := rfl
  have es' : (m.sub es).data = es.foldl (fun (d : Data K) e => d.modify e.1 (fun x => x - e.2)) m.data := rfl
  have hex : (∃ e ∈ es, e.1 = j) ↔ Data.hasIndex es j = true := by
    unfold Data.hasIndex
    cases hf : Data.find es j with
    | none =>
      rw [Data.find_none_iff] at hf
      simp only [Option.isSome_none, Bool.false_eq_true, iff_false]
      rintro ⟨e, he, hj⟩; exact hf e he hj
    | some v =>
      simp only [Option.isSome_some, iff_true]
      by_contra hc
      have : Data.find es j = none := Data.find_none_iff.2 (fun e he hj => hc ⟨e, he, hj⟩)
      rw [this] at hf; cases hf
  have hnone : ¬ (∃ e ∈ es, e.1 = j) → Data.get es j = 0 := by
    intro hc
    rw [Data.get_eq, Data.find_none_iff.2 (fun e he hj => hc ⟨e, he, hj⟩)]; rfl
  rw [ea, es']
  refine ⟨?_, ?_, ?_, ?_, a1, s1⟩
  · rw [Data.get_eq, a2]
    split
    · rw [sum_filter_key hd (fun x => x) rfl]; rfl
    · rename_i hc; rw [hnone hc, add_zero, Data.get_eq]
  · rw [Data.get_eq, s2]
    split
    · rw [sum_filter_key hd (fun x => -x) neg_zero]; simp [sub_eq_add_neg]
    · rename_i hc; rw [hnone hc, sub_zero, Data.get_eq]
  · rw [Data.hasIndex, a2]
    split
    · rename_i hc; simp [hex.1 hc]
    · rename_i hc
      rw [hex, Bool.not_eq_true] at hc; rw [hc, Bool.or_false]; rfl
  · rw [Data.hasIndex, s2]
    split
    · rename_i hc; simp [hex.1 hc]
    · rename_i hc
      rw [hex, Bool.not_eq_true] at hc; rw [hc, Bool.or_false]; rfl

example : (Mat.sub (⟨(2, 2), [((0, 0), 3), ((1, 1), 4)]⟩ : Mat ℚ)
    (Transpose.elems [((0, 1), 5), ((1, 1), 1)])) = ⟨(2, 2), [((0, 0), 3), ((1, 0), -5), ((1, 1), 3)]⟩ := by
  decide +kernel

/-- C10, `addScaledIdentity` (and `addIdentity`, with `a = 1`): `a` is added on the diagonal for
every row. -/
theorem C10_addScaledIdentity (m : Mat K) (h : Increasing m.data) (a : K) (j : Index) :
    (m.addScaledIdentity a).size = m.size ∧
    (m.addScaledIdentity a).data.get j
      = m.data.get j + if j.1 = j.2 ∧ j.1 < m.size.1 then a else 0 := by
  refine ⟨rfl, ?_⟩
  let es : List (Index × K) := (List.range m.size.1).map (fun i => ((i, i), a))
  have h1 : (m.addScaledIdentity a) = m.add es := by
    unfold Mat.addScaledIdentity Mat.add
    simp only [es, List.foldl_map]
  have hd : (es.map Prod.fst).Nodup := by
    simp only [es, List.map_map]
    exact List.nodup_range.map (fun x y hxy => by simpa using hxy)
  rw [h1, (C10_add_sub m h es hd j).1]
  congr 1
  rw [Data.get_eq]
  split
  · rename_i hj
    have : (j, a) ∈ es := by
      simp only [es, List.mem_map, List.mem_range]
      refine ⟨j.1, hj.2, ?_⟩
      rw [show (j.1, j.1) = j from Prod.ext rfl hj.1]
    rw [Data.find_of_mem_unique hd this]; rfl
  · rename_i hj
    rw [Data.find_none_iff.2]
    · rfl
    · intro e he hej
      simp only [es, List.mem_map, List.mem_range] at he
      obtain ⟨i, hi, rfl⟩ := he
      apply hj
      rw [← hej]; exact ⟨rfl, hi⟩

/-- C10, `scaledIdentity(n, a)` is `a` times the unit matrix. -/
theorem C10_identity (n : Nat) (a : K) :
    dense (Mat.scaledIdentity n a) n n = a • (1 : Matrix (Fin n) (Fin n) K) := by
  funext i j
  show (Mat.scaledIdentity n a).data.get (i, j) = _
  unfold Mat.scaledIdentity
  rw [(C10_addScaledIdentity (Mat.ofSize n n) (by simp [Mat.ofSize, Increasing]) a _).2]
  have : (Mat.ofSize n n : Mat K).data.get (↑i, ↑j) = 0 := rfl
  rw [this, zero_add, Matrix.smul_apply, Matrix.one_apply]
  have hi := i.2
  by_cases hij : i = j
  · subst hij
    have : (i : Nat) < (Mat.ofSize n n : Mat K).size.1 := hi
    simp [this]
  · have : (i : Nat) ≠ j := fun hc => hij (Fin.ext hc)
    simp [this, hij]

/-! ## C11 -/

/-- C11 for the block view, the index-pair accessors, queries and enumeration. -/
theorem C11_block_partial (b : Block) (src : Data K) (h : Increasing src) (i : Index)
    (hi : i.1 < b.size.1 ∧ i.2 < b.size.2) :
    b.get src i = src.get (i.1 + b.from_.1, i.2 + b.from_.2) ∧
    b.get src i = Data.get (b.elems src) i ∧
    b.hasIndex src i = Data.hasIndex (b.elems src) i ∧
    b.checkedGet src i = Data.checkedGet (b.elems src) i ∧
    Increasing (b.elems src) ∧
    (∀ e ∈ b.elems src, e.1.1 < b.size.1 ∧ e.1.2 < b.size.2) := by
  have hf := Block.find_elems (b := b) h i
  rw [if_pos hi] at hf
  refine ⟨rfl, ?_, ?_, ?_, Block.inc_elems h, ?_⟩
  · unfold Block.get Data.get Block.sourceIndex; rw [hf]
  · unfold Block.hasIndex Data.hasIndex Block.sourceIndex; rw [hf]
  · unfold Block.checkedGet Data.checkedGet Block.sourceIndex; rw [hf]
  · rintro ⟨j, v⟩ he
    exact ((Block.mem_elems h).1 he).1

/-- C11 for the transposed view, the index-pair accessors, queries and enumeration. -/
theorem C11_transpose_partial (src : Data K) (h : Increasing src) (i : Index) :
    Transpose.get src i = src.get (i.2, i.1) ∧
    Transpose.get src i = Data.get (Transpose.elems src) i ∧
    Transpose.hasIndex src i = Data.hasIndex (Transpose.elems src) i ∧
    Transpose.checkedGet src i = Data.checkedGet (Transpose.elems src) i ∧
    ((Transpose.elems src).map Prod.fst).Nodup := by
  have hf := Transpose.find_elems h i
  refine ⟨rfl, ?_, ?_, ?_, Transpose.nodup_elems h⟩
  · unfold Transpose.get Data.get Transpose.idx; rw [hf]
  · unfold Transpose.hasIndex Data.hasIndex Transpose.idx; rw [hf]
  · unfold Transpose.checkedGet Data.checkedGet Transpose.idx; rw [hf]

/-- C11 fails for the two-argument overloads: they read the source without translating. -/
theorem C11_false :
    (∃ (b : Block) (src : Data ℚ) (r c : Nat), r < b.size.1 ∧ c < b.size.2 ∧ Increasing src ∧
      b.get2 src r c ≠ b.get src (r, c)) ∧
    (∃ (src : Data ℚ) (r c : Nat), Increasing src ∧
      Transpose.get2 src r c ≠ Transpose.get src (r, c)) := by
  refine ⟨⟨⟨(1, 1), (2, 2)⟩, [((0, 0), 5), ((1, 1), 7)], 0, 0, ?_⟩,
    ⟨[((0, 1), 5)], 0, 1, ?_⟩⟩
  · refine ⟨by decide, by decide, by simp [Increasing], by decide +kernel⟩
  · exact ⟨by simp [Increasing], by decide +kernel⟩

/-- C11, when the two-argument overloads are right: block at the origin; symmetric data. -/
theorem C11_get2_partial (b : Block) (src : Data K) (r c : Nat) :
    (b.from_ = (0, 0) → b.get2 src r c = b.get src (r, c)) ∧
    ((∀ i j, src.get (i, j) = src.get (j, i)) →
      Transpose.get2 src r c = Transpose.get src (r, c)) := by
  refine ⟨fun h => ?_, fun h => h r c⟩
  unfold Block.get2 Block.get Block.sourceIndex
  rw [h]; rfl

/-- C11, effects of a block view on its source: writing through the view, removing, clearing the
block and assigning to the block change exactly the elements of the block. -/
theorem C11_block_effects (b : Block) (src : Data K) (h : Increasing src) (i : Index) (v : K)
    (es : List (Index × K)) (hes : (es.map Prod.fst).Nodup)
    (hin : ∀ e ∈ es, e.1.1 < b.size.1 ∧ e.1.2 < b.size.2) (j : Index) :
    let here := b.from_.1 ≤ j.1 ∧ j.1 < b.from_.1 + b.size.1 ∧ b.from_.2 ≤ j.2 ∧
      j.2 < b.from_.2 + b.size.2
    Data.get (b.set src i v) j = (if j = (i.1 + b.from_.1, i.2 + b.from_.2) then v else src.get j) ∧
    Data.hasIndex (b.removeAt src i) j
      = (if j = (i.1 + b.from_.1, i.2 + b.from_.2) then false else src.hasIndex j) ∧
    Data.find (b.clear src) j = (if here then none else src.find j) ∧
    Data.find (b.assign src es) j
      = (if here then Data.find es (j.1 - b.from_.1, j.2 - b.from_.2) else src.find j) ∧
    Increasing (b.assign src es) := by
  intro here
  have hhere : b.isValid j = true ↔ here := Block.isValid_iff
  obtain ⟨c1, c2⟩ := Block.clear_spec (b := b) h
  have hset := Data.find_setAll c1 es b.sourceIndex j
  refine ⟨?_, ?_, ?_, ?_, hset.1⟩
  · unfold Block.set Block.sourceIndex
    rw [Data.get_eq, Data.find_set h]
    split
    · rfl
    · rw [Data.get_eq]
  · unfold Block.removeAt Block.sourceIndex Data.hasIndex
    rw [Data.find_removeAt h]
    split <;> rfl
  · rw [c2]; simp only [hhere]
  · unfold Block.assign
    rw [Block.foldl_set, hset.2, c2]
    simp only [hhere]
    have hrev : ∀ k, (es.reverse.find? (fun e => e.1 == k)).map (·.2) = Data.find es k := by
      intro k
      have h2 := Data.find_perm (a := es.reverse) (b := es)
        (by rw [List.map_reverse]; exact List.nodup_reverse.2 hes) (by simp) k
      rw [← h2]; rfl
    by_cases hh : here
    · rw [if_pos hh, if_pos hh, Option.or_none, ← hrev]
      congr 2
      funext e
      rw [Bool.eq_iff_iff]
      simp only [beq_iff_eq, Block.sourceIndex, Prod.ext_iff]
      obtain ⟨x1, x2, x3, x4⟩ := hh
      omega
    · rw [if_neg hh, if_neg hh]
      have : es.reverse.find? (fun e => b.sourceIndex e.1 == j) = none := by
        rw [List.find?_eq_none]
        intro e he hej
        rw [List.mem_reverse] at he
        have := hin e he
        simp only [beq_iff_eq] at hej
        apply hh
        rw [← hhere, ← hej, Block.isValid_iff]
        simp only [Block.sourceIndex]
        omega
      rw [this]; rfl

example : Block.assign ⟨(1, 1), (2, 2)⟩ ([((0, 0), 1), ((1, 1), 2), ((2, 1), 3), ((3, 3), 4)] : Data ℚ)
    [((0, 1), 7)] = [((0, 0), 1), ((1, 2), 7), ((3, 3), 4)] := by decide +kernel

/-- C11, `count` of a block: the number of positions of the block at which the source has an element. -/
theorem C11_block_count (b : Block) (src : Data K) (h : Increasing src) :
    b.count src = ((Finset.range b.size.1 ×ˢ Finset.range b.size.2).filter
      (fun i => src.hasIndex (i.1 + b.from_.1, i.2 + b.from_.2) = true)).card := by
  have hnd : ((b.elems src).map Prod.fst).Nodup := by
    refine List.Pairwise.map _ (fun a c hac heq => ?_) (Block.inc_elems h (b := b))
    rw [heq] at hac
    omega
  have hset : ((b.elems src).map Prod.fst).toFinset
      = (Finset.range b.size.1 ×ˢ Finset.range b.size.2).filter
        (fun i => src.hasIndex (i.1 + b.from_.1, i.2 + b.from_.2) = true) := by
    ext i
    rw [List.mem_toFinset, List.mem_map, Finset.mem_filter, Finset.mem_product, Finset.mem_range, Finset.mem_range]
    constructor
    · rintro ⟨⟨j, v⟩, he, rfl⟩
      obtain ⟨h1, h2⟩ := (Block.mem_elems h).1 he
      exact ⟨h1, by unfold Data.hasIndex; simp only at h2 ⊢; rw [h2]; rfl⟩
    · rintro ⟨h1, h2⟩
      obtain ⟨v, hv⟩ := Option.isSome_iff_exists.1 h2
      exact ⟨(i, v), (Block.mem_elems h).2 ⟨h1, hv⟩, rfl⟩
  rw [← hset, List.toFinset_card_of_nodup hnd, List.length_map]
  rfl

example : Block.count ⟨(1, 1), (2, 2)⟩ ([((0, 0), 1), ((1, 1), 2), ((2, 1), 3), ((3, 3), 4)] : Data ℚ) = 2 := by
  decide +kernel

/-- C11, a matrix copied from a transposed view of other data is the transposed matrix. -/
theorem C11_copy_transposed (m dest : Mat K) (h : Increasing m.data) (n k : Nat) :
    dense (dest.assign (k, n) (Transpose.elems m.data)) k n = (dense m n k).transpose := by
  funext i j
  show (Data.copyFrom [] (Transpose.elems m.data)).get (i, j) = m.data.get (j, i)
  rw [Data.get_eq, (find_copyFrom (m := []) (es := Transpose.elems m.data)).2.2
    (Transpose.nodup_elems h), Transpose.find_elems h, Data.get_eq]

/-- C11, the scaling view. -/
theorem C11_scale (src : Data K) (a : K) (i : Index) :
    Scale.get src a i = src.get i * a ∧
    Scale.get src a i = Data.get (Scale.elems src a) i ∧
    Scale.checkedGet src a i = Data.checkedGet (Scale.elems src a) i := by
  have hf := Data.find_map src (fun x => x * a) i
  have hf : Data.find (Scale.elems src a) i = (Data.find src i).map (fun x => x * a) := hf
  refine ⟨rfl, ?_, ?_⟩
  · unfold Scale.get
    rw [Data.get_eq, Data.get_eq, hf]
    cases Data.find src i <;> simp
  · unfold Scale.checkedGet
    rw [Data.checkedGet_eq, Data.checkedGet_eq, Data.get_eq, Data.get_eq, Data.hasIndex,
      Data.hasIndex, hf]
    cases Data.find src i <;> simp

end

/-! ## C12 -/

section
variable [CommRing K]

/-- What `v * M` does for every size with at least as many rows as columns. -/
theorem vecMul_tall (m : Mat K) (n k : Nat) (h : Wf m) (hs : m.size = (n, k)) (hkn : k ≤ n)
    (x : List K) (hx : n ≤ x.length) :
    ∃ y, Mat.vecMul x m = .ok y ∧ y.length = n ∧
      vecOf y k = (dense m n k).vecMul (vecOf x n) ∧ ∀ i, k ≤ i → y.getD i 0 = 0 := by
  obtain ⟨⟨r, c⟩, d⟩ := m
  cases hs
  obtain ⟨y, hy, hl, hv⟩ := mulLoop d x (List.replicate n 0) (fun i => i.2) (fun i => i.1)
    (fun e he => by simpa using lt_of_lt_of_le (h.inside e he).2 hkn)
    (fun e he => lt_of_lt_of_le (h.inside e he).1 hx)
  have hrep : ∀ i, (List.replicate n (0 : K)).getD i 0 = 0 := by
    intro i
    rw [List.getD_eq_getElem?_getD, List.getElem?_replicate]
    split <;> rfl
  refine ⟨y, ?_, by simpa using hl, ?_, ?_⟩
  · unfold Mat.vecMul Mat.mulVectLeft
    rw [if_neg (by simpa using hkn)]
    rw [← hy]
    congr 1
    simp only [List.drop_replicate, ← List.replicate_add]
    congr 1
    omega
  · funext i
    show y.getD i 0 = _
    rw [hv, hrep, zero_add, sum_elems (Data.inc_nodup h.inc)
      (fun q v => if q.2 = i then v * x.getD q.1 0 else 0)
      (by simp) (Finset.range n ×ˢ Finset.range k)]
    · rw [Finset.sum_product_right, Finset.sum_eq_single (i : Nat)]
      · simp only [if_true]
        rw [← Fin.sum_univ_eq_sum_range (fun q => Data.get d (q, ↑i) * x.getD q 0)]
        simp [Matrix.vecMul, dotProduct, dense, vecOf, mul_comm]
      · intro b _ hb
        simp [hb]
      · intro hi; simp at hi
    · intro e he
      have := h.inside e he
      simpa using this
  · intro i hi
    rw [hv, hrep, zero_add]
    apply List.sum_eq_zero
    intro z hz
    rw [List.mem_map] at hz
    obtain ⟨e, he, rfl⟩ := hz
    have h2 : e.1.2 < k := (h.inside e he).2
    rw [if_neg (by omega)]

/-- C12 holds for square matrices. -/
theorem C12_square_partial (m : Mat K) (n : Nat) (h : Wf m) (hs : m.size = (n, n)) (x : List K)
    (hx : n ≤ x.length) :
    Transpose.size m = (m.size.2, m.size.1) ∧
    ∃ y, Mat.vecMul x m = .ok y ∧ y.length = m.size.2 ∧
      vecOf y n = (dense m n n).vecMul (vecOf x n) := by
  obtain ⟨y, h1, h2, h3, _⟩ := vecMul_tall m n n h hs (le_refl _) x hx
  refine ⟨by rw [Transpose.size, hs], y, h1, by rw [h2, hs], h3⟩

/-- C12, rectangular matrices: with more rows than columns the product is right in its first
components but is followed by superfluous zeros; with fewer rows the destination is too short and
the call writes out of bounds. -/
theorem C12_rectangular_partial (m : Mat K) (n k : Nat) (h : Wf m) (hs : m.size = (n, k))
    (x : List K) (hx : n ≤ x.length) :
    (k ≤ n → ∃ y, Mat.vecMul x m = .ok y ∧ y.length = n ∧
      vecOf y k = (dense m n k).vecMul (vecOf x n) ∧ ∀ i, k ≤ i → y.getD i 0 = 0) ∧
    (n < k → Mat.vecMul x m = .error .ub) := by
  refine ⟨fun hk => vecMul_tall m n k h hs hk x hx, fun hk => ?_⟩
  unfold Mat.vecMul Mat.mulVectLeft
  rw [hs, if_pos (by simpa using hk)]

example : (Mat.vecMul [1, 10] (⟨(2, 2), [((0, 0), 3), ((0, 1), 4), ((1, 0), 5)]⟩ : Mat ℚ)).toOption
    = some [53, 4] := by decide +kernel

end

/-- C12 is false: sizes of the transposed view and of `v * M` for rectangular matrices. -/
theorem C12_false :
    (∃ m : Mat ℚ, Wf m ∧ Transpose.size m ≠ (m.size.2, m.size.1)) ∧
    (∃ (m : Mat ℚ) (x y : List ℚ), Wf m ∧ x.length = m.size.1 ∧ Mat.vecMul x m = .ok y ∧
      y.length ≠ m.size.2) ∧
    (∃ (m : Mat ℚ) (x : List ℚ), Wf m ∧ x.length = m.size.1 ∧ Mat.vecMul x m = .error .ub) := by
  refine ⟨⟨⟨(2, 3), [((1, 2), 1)]⟩, ⟨by simp [Increasing], by simp⟩, by decide⟩,
    ⟨⟨(2, 1), [((1, 0), 1)]⟩, [1, 2], [2, 0], ⟨by simp [Increasing], by simp⟩, rfl, ?_, by decide⟩,
    ⟨⟨(1, 2), [((0, 1), 1)]⟩, [1], ⟨by simp [Increasing], by simp⟩, rfl, ?_⟩⟩
  · simp [Mat.vecMul, Mat.mulVectLeft, raw, rawSet]
  · simp [Mat.vecMul, Mat.mulVectLeft]

/-! ## C63: operations whose right side is a view of the left side -/

/-- C63 is false: `m = m.transposed()` leaves an empty matrix, and `m += m.transposed()` is not
the sum with the transpose. -/
theorem C63_false :
    (∃ m : Mat ℚ, Wf m ∧ m.size.1 = m.size.2 ∧
      ∃ i, (assignOwnTranspose m).data.get i ≠ m.data.get (i.2, i.1)) ∧
    (∃ m : Mat ℚ, Wf m ∧ m.size.1 = m.size.2 ∧
      ∃ i, (addOwnTranspose m).data.get i ≠ m.data.get i + m.data.get (i.2, i.1)) := by
  refine ⟨⟨⟨(2, 2), [((0, 1), 5)]⟩, ⟨by simp [Increasing], by simp⟩, rfl, (1, 0), ?_⟩,
    ⟨⟨(2, 2), [((0, 1), 5)]⟩, ⟨by simp [Increasing], by simp⟩, rfl, (0, 1), ?_⟩⟩
  · decide +kernel
  · decide +kernel

/-- C63: `m = m.transposed()` always yields a matrix without elements. -/
theorem C63_assign_empty [Zero K] (m : Mat K) (i : Index) :
    (assignOwnTranspose m).data = [] ∧ (assignOwnTranspose m).data.get i = 0 := ⟨rfl, rfl⟩

/-- C63, going through a copy works: `t = m.transposed(); m = t; ` and
`t = m.transposed(); m += t;`. -/
theorem C63_copy_partial [Ring K] (m : Mat K) (h : Increasing m.data) (size : Index) (i : Index) :
    let t := (Mat.ofSize 0 0 : Mat K).assign size (Transpose.elems m.data)
    (m.assign size t.data).data.get i = m.data.get (i.2, i.1) ∧
    (m.add t.data).data.get i = m.data.get i + m.data.get (i.2, i.1) := by
  intro t
  obtain ⟨h1, _, h3⟩ := find_copyFrom (m := ([] : Data K)) (es := Transpose.elems m.data)
  have h3 := h3 (Transpose.nodup_elems h)
  have ht : ∀ i, t.data.get i = m.data.get (i.2, i.1) := by
    intro i
    rw [Data.get_eq, Data.get_eq]
    show (Data.find (Data.copyFrom [] (Transpose.elems m.data)) i).getD 0 = _
    rw [h3, Transpose.find_elems h]
  refine ⟨?_, ?_⟩
  · obtain ⟨_, _, h5⟩ := find_copyFrom (m := ([] : Data K)) (es := t.data)
    rw [← ht, Data.get_eq, Data.get_eq]
    show (Data.find (Data.copyFrom [] t.data) i).getD 0 = _
    rw [h5 (Data.inc_nodup h1)]
  · rw [(C10_add_sub m h t.data (Data.inc_nodup h1) i).1, ht]

/-! ## C64: norms -/

section
variable [CommRing K] [LinearOrder K] [IsStrictOrderedRing K]

/-- C64. Norms of a matrix: `infNorm` is the least upper bound of zero and the absolute values of
the elements, `oneNorm` and `euclideanNormSquare` are sums over all positions. -/
theorem C64_matrix_norms (m : Mat K) (h : Wf m) :
    (∀ i, |m.data.get i| ≤ Mat.infNorm m.data) ∧
    (∀ b, 0 ≤ b → (∀ i, |m.data.get i| ≤ b) → Mat.infNorm m.data ≤ b) ∧
    Mat.oneNorm m.data
      = ∑ r ∈ Finset.range m.size.1, ∑ c ∈ Finset.range m.size.2, |m.data.get (r, c)| ∧
    Mat.normSq m.data
      = ∑ r ∈ Finset.range m.size.1, ∑ c ∈ Finset.range m.size.2, m.data.get (r, c) ^ 2 := by
  have H : ∀ (d : List (Index × K)) (z : K),
      let t := d.foldl (fun r e => r ⊔ |e.2|) z
      z ≤ t ∧ (∀ e ∈ d, |e.2| ≤ t) ∧ ∀ b, z ≤ b → (∀ e ∈ d, |e.2| ≤ b) → t ≤ b := by
    intro d
    induction d with
    | nil => intro z; simp
    | cons e d ih =>
      intro z
      obtain ⟨h1, h2, h3⟩ := ih (z ⊔ |e.2|)
      rw [List.foldl_cons]
      refine ⟨le_trans le_sup_left h1, ?_, ?_⟩
      · intro x hx
        rcases List.mem_cons.1 hx with rfl | hx
        · exact le_trans le_sup_right h1
        · exact h2 x hx
      · intro b hz hb
        exact h3 b (sup_le hz (hb e (by simp))) (fun x hx => hb x (by simp [hx]))
  obtain ⟨h1, h2, h3⟩ := H m.data 0
  have hS : ∀ e ∈ m.data, e.1 ∈ Finset.range m.size.1 ×ˢ Finset.range m.size.2 := by
    intro e he
    have := h.inside e he
    simpa using this
  refine ⟨?_, ?_, ?_, ?_⟩
  · intro i
    rw [Data.get_eq]
    cases hf : m.data.find i with
    | none => simpa [Mat.infNorm] using h1
    | some v => exact h2 _ ((Data.mem_iff h.inc).2 hf)
  · intro b hb hall
    refine h3 b hb ?_
    rintro ⟨i, v⟩ he
    have := hall i
    rw [Data.get_eq, (Data.mem_iff h.inc).1 he] at this
    exact this
  · unfold Mat.oneNorm
    rw [foldl_add m.data (fun e => |e.2|), zero_add, sum_elems (Data.inc_nodup h.inc)
      (fun _ v => |v|) (by simp) _ hS, Finset.sum_product]
  · unfold Mat.normSq
    rw [foldl_add m.data (fun e => e.2 * e.2), zero_add, sum_elems (Data.inc_nodup h.inc)
      (fun _ v => v * v) (by simp) _ hS, Finset.sum_product]
    simp only [pow_two]

end

example : Mat.infNorm ([((0, 0), 3), ((1, 1), -4)] : List (Index × ℚ)) = 4 ∧
    Mat.oneNorm ([((0, 0), 3), ((1, 1), -4)] : List (Index × ℚ)) = 7 ∧
    Mat.normSq ([((0, 0), 3), ((1, 1), -4)] : List (Index × ℚ)) = 25 := by decide +kernel

end Verif.Sparse
