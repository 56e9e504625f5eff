import Verif.Sparse.Lemmas
import Mathlib.Algebra.BigOperators.Ring.Finset
import Mathlib.Algebra.BigOperators.Fin
import Mathlib.Data.Matrix.Basic
import Mathlib.Algebra.BigOperators.Group.Finset.Sigma
import Mathlib.Data.List.DropRight

/-! # Rows, products and entrywise operations -/

namespace Verif.Sparse

open Verif.Res
open scoped BigOperators

variable {K : Type}

theorem dropWhile_eq_filter {α : Type} {p : α → Bool} {m : List α}
    (h : m.Pairwise (fun a b => p b = true → p a = true)) :
    m.dropWhile p = m.filter (fun x => !p x) := by
  induction m with
  | nil => rfl
  | cons e m ih =>
    rw [List.pairwise_cons] at h
    rw [List.dropWhile_cons, List.filter_cons]
    by_cases hp : p e = true
    · rw [if_pos hp, if_neg (by simp [hp]), ih h.2]
    · rw [if_neg hp, if_pos (by simp [hp])]
      congr 1
      symm
      rw [List.filter_eq_self]
      intro x hx
      have := h.1 x hx
      simp only [Bool.not_eq_true'] at *
      cases hpx : p x with
      | false => rfl
      | true => exact absurd (this hpx) hp

namespace Data

theorem lowerBound_eq {m : Data K} (h : Increasing m) (i : Index) :
    m.lowerBound i = m.filter (fun e => !ltI e.1 i) := by
  refine dropWhile_eq_filter (List.Pairwise.imp ?_ h)
  intro a b hab hb
  rw [ltI_iff] at *; omega

theorem upperBound_eq {m : Data K} (h : Increasing m) (i : Index) :
    m.upperBound i = m.filter (fun e => ltI i e.1) := by
  unfold upperBound
  rw [dropWhile_eq_filter (List.Pairwise.imp ?_ h)]
  · simp
  · intro a b hab hb
    simp only [Bool.not_eq_true', Bool.eq_false_iff, Ne, ltI_iff] at *; omega

theorem row_eq {m : Data K} (h : Increasing m) (hc : ∀ e ∈ m, e.1.2 < 4294967296) (r : Nat) :
    m.row r = m.filter (fun e => e.1.1 == r) := by
  unfold row
  rw [lowerBound_eq h, upperBound_eq h]
  have hb := inc_filter h (fun e => !ltI e.1 (r, 0))
  set b := m.filter (fun e => !ltI e.1 (r, 0)) with hbdef
  have h1 : m.filter (fun e => ltI (r, 4294967295) e.1) = b.dropWhile (fun e => e.1.1 == r) := by
    rw [dropWhile_eq_filter, hbdef, List.filter_filter]
    · apply List.filter_congr
      intro e he
      have := hc e he
      rw [Bool.eq_iff_iff]
      simp only [Bool.and_eq_true, Bool.not_eq_true', Bool.eq_false_iff, Ne, ltI_iff, beq_iff_eq]
      omega
    · rw [List.pairwise_iff_forall_sublist]
      intro a c hac hc'
      have hp := (List.pairwise_iff_forall_sublist.1 hb) hac
      have ha : a ∈ b := hac.subset (by simp)
      rw [hbdef, List.mem_filter] at ha
      have := ha.2
      simp only [Bool.not_eq_true', Bool.eq_false_iff, Ne, ltI_iff, beq_iff_eq] at *
      omega
  have h2 : m.filter (fun e => e.1.1 == r) = b.takeWhile (fun e => e.1.1 == r) := by
    have h3 : m.filter (fun e => e.1.1 == r) = b.filter (fun e => e.1.1 == r) := by
      rw [hbdef, List.filter_filter]
      apply List.filter_congr
      intro e he
      rw [Bool.eq_iff_iff]
      simp only [Bool.and_eq_true, Bool.not_eq_true', Bool.eq_false_iff, Ne, ltI_iff, beq_iff_eq]
      omega
    rw [h3]
    conv_lhs => rw [← List.takeWhile_append_dropWhile (p := fun e : Index × K => e.1.1 == r) (l := b)]
    rw [List.filter_append, ← h1]
    rw [List.filter_eq_self.2, List.filter_eq_nil_iff.2, List.append_nil]
    · intro e he
      rw [List.mem_filter] at he
      have h4 := hc e he.1
      have h5 := he.2
      rw [ltI_iff] at h5
      simp only [beq_iff_eq]
      omega
    · intro e he
      exact List.mem_takeWhile_imp (p := fun e : Index × K => e.1.1 == r) he
  rw [h2, h1]
  have hlen : b.length - (b.dropWhile (fun e => e.1.1 == r)).length
      = (b.takeWhile (fun e => e.1.1 == r)).length := by
    have := congrArg List.length
      (List.takeWhile_append_dropWhile (p := fun e : Index × K => e.1.1 == r) (l := b))
    rw [List.length_append] at this
    omega
  show b.take (b.length - (b.dropWhile (fun e => e.1.1 == r)).length) = _
  rw [hlen]
  conv_lhs =>
    rw [← List.takeWhile_append_dropWhile (p := fun e : Index × K => e.1.1 == r) (l := b)]
  simp only [List.takeWhile_append_dropWhile]
  exact List.prefix_iff_eq_take.1 (List.takeWhile_prefix _) |>.symm

end Data

section
variable [Ring K]

/-- A sum over the stored elements is a sum over any set of positions containing them. -/
theorem sum_elems {es : List (Index × K)} (hd : (es.map Prod.fst).Nodup) (g : Index → K → K)
    (g0 : ∀ i, g i 0 = 0) (S : Finset Index) (hS : ∀ e ∈ es, e.1 ∈ S) :
    (es.map (fun e => g e.1 e.2)).sum = ∑ i ∈ S, g i (Data.get es i) := by
  induction es with
  | nil =>
    have : ∀ i, Data.get ([] : List (Index × K)) i = 0 := fun _ => rfl
    simp [this, g0]
  | cons e es ih =>
    rw [List.map_cons, List.nodup_cons] at hd
    rw [List.map_cons, List.sum_cons, ih hd.2 (fun x hx => hS x (by simp [hx]))]
    have he := hS e (by simp)
    rw [← Finset.add_sum_erase _ _ he, ← Finset.add_sum_erase S (fun i => g i (Data.get (e :: es) i)) he]
    have h1 : Data.get es e.1 = 0 := by
      rw [Data.get_eq, Data.find_none_iff.2]
      · rfl
      · intro x hx hxe
        exact hd.1 (List.mem_map.2 ⟨x, hx, hxe⟩)
    have h2 : Data.get (e :: es) e.1 = e.2 := by
      rw [Data.get_eq, Data.find_cons, if_pos rfl]; rfl
    rw [h1, g0, zero_add, h2]
    congr 1
    apply Finset.sum_congr rfl
    intro i hi
    have : e.1 ≠ i := (Finset.ne_of_mem_erase hi).symm
    rw [Data.get_eq (e :: es), Data.find_cons, if_neg this, Data.get_eq]

theorem foldl_add (es : List (Index × K)) (f : Index × K → K) (z : K) :
    es.foldl (fun p e => p + f e) z = z + (es.map f).sum := by
  induction es generalizing z with
  | nil => simp
  | cons e es ih => rw [List.foldl_cons, ih, List.map_cons, List.sum_cons, add_assoc]

/-- What `+=`-like loops do to lookups. -/
theorem find_foldl_modify {m : Data K} (h : Increasing m) (es : List (Index × K)) (f : K → K) :
    Increasing (es.foldl (fun (d : Data K) e => d.modify e.1 (fun x => x + f e.2)) m) ∧
    ∀ j, Data.find (es.foldl (fun (d : Data K) e => d.modify e.1 (fun x => x + f e.2)) m) j
      = if ∃ e ∈ es, e.1 = j then
          some (m.get j + ((es.filter (fun e => e.1 == j)).map (fun e => f e.2)).sum)
        else m.find j := by
  induction es generalizing m with
  | nil => simp [h]
  | cons e es ih =>
    rw [List.foldl_cons]
    obtain ⟨h1, h2⟩ := ih (Data.inc_modify h e.1 (fun x => x + f e.2))
    refine ⟨h1, fun j => ?_⟩
    rw [h2]
    have hg : Data.get (m.modify e.1 (fun x => x + f e.2)) j
        = if j = e.1 then m.get j + f e.2 else m.get j := by
      rw [Data.get_eq, Data.find_modify h]
      by_cases hj : j = e.1
      · rw [if_pos hj, if_pos hj, hj, Data.get_eq]; rfl
      · rw [if_neg hj, if_neg hj, Data.get_eq]
    rw [hg, Data.find_modify h]
    by_cases hj : j = e.1
    · subst hj
      simp only [↓reduceIte, List.mem_cons, exists_eq_or_imp, true_or, beq_self_eq_true,
        List.filter_cons_of_pos, List.map_cons, List.sum_cons]
      split
      · rw [add_assoc]
      · rename_i hn
        have : es.filter (fun x => x.1 == e.1) = [] := by
          rw [List.filter_eq_nil_iff]
          intro x hx hxe
          exact hn ⟨x, hx, by simpa using hxe⟩
        rw [this]
        simp [Data.get_eq]
    · have hj' : e.1 ≠ j := Ne.symm hj
      have : (∃ x ∈ e :: es, x.1 = j) ↔ ∃ x ∈ es, x.1 = j := by
        simp only [List.mem_cons, exists_eq_or_imp, hj', false_or]
      rw [List.filter_cons, if_neg (show ¬ (e.1 == j) = true by simpa using hj')]
      simp only [this, hj, if_false]

theorem sum_filter_key {es : List (Index × K)} (hd : (es.map Prod.fst).Nodup) (f : K → K)
    (f0 : f 0 = 0) (j : Index) :
    ((es.filter (fun e => e.1 == j)).map (fun e => f e.2)).sum = f (Data.get es j) := by
  induction es with
  | nil => simp [Data.get_eq, Data.find_nil, f0]
  | cons e es ih =>
    rw [List.map_cons, List.nodup_cons] at hd
    rw [List.filter_cons, Data.get_eq, Data.find_cons]
    by_cases hj : e.1 = j
    · subst hj
      have : es.filter (fun x => x.1 == e.1) = [] := by
        rw [List.filter_eq_nil_iff]
        intro x hx hxe
        exact hd.1 (List.mem_map.2 ⟨x, hx, by simpa using hxe⟩)
      simp [this]
    · rw [if_neg (by simpa using hj), if_neg hj, ih hd.2, Data.get_eq]

end

section
variable [Ring K] [DecidableEq K]

/-- One column of `operator*`. -/
theorem inner_fold (L : List Nat) (f : Nat → K) (c : Nat) (m : Mat K) (h : Increasing m.data) :
    let m' := L.foldl (fun (res : Mat K) r =>
      if f r ≠ 0 then (⟨res.size, res.data.set (r, c) (f r)⟩ : Mat K) else res) m
    m'.size = m.size ∧ Increasing m'.data ∧
    ∀ j, m'.data.find j
      = if j.2 = c ∧ j.1 ∈ L ∧ f j.1 ≠ 0 then some (f j.1) else m.data.find j := by
  induction L generalizing m with
  | nil => simp [h]
  | cons r L ih =>
    simp only [List.foldl_cons]
    by_cases hf : f r ≠ 0
    · rw [if_pos hf]
      obtain ⟨h1, h2, h3⟩ := ih ⟨m.size, m.data.set (r, c) (f r)⟩ (Data.inc_set h _ _)
      refine ⟨h1, h2, fun j => ?_⟩
      rw [h3]
      simp only [Data.find_set h]
      by_cases hj : j = (r, c)
      · subst hj; simp [hf]
      · have : ¬ (j.2 = c ∧ j.1 = r) := by
          rintro ⟨a, b⟩; exact hj (Prod.ext b a)
        rw [if_neg hj]
        by_cases hc : j.2 = c
        · have hr : ¬ j.1 = r := fun hr => this ⟨hc, hr⟩
          simp [hc, hr]
        · simp [hc]
    · rw [if_neg hf]
      obtain ⟨h1, h2, h3⟩ := ih m h
      refine ⟨h1, h2, fun j => ?_⟩
      rw [h3]
      by_cases hr : j.1 = r
      · subst hr; simp at hf; simp [hf]
      · simp [hr]

theorem outer_fold (C L : List Nat) (f : Nat → Nat → K) (m : Mat K) (h : Increasing m.data) :
    let m' := C.foldl (fun (res : Mat K) c => L.foldl (fun (res : Mat K) r =>
      if f r c ≠ 0 then (⟨res.size, res.data.set (r, c) (f r c)⟩ : Mat K) else res) res) m
    m'.size = m.size ∧ Increasing m'.data ∧
    ∀ j, m'.data.find j
      = if j.2 ∈ C ∧ j.1 ∈ L ∧ f j.1 j.2 ≠ 0 then some (f j.1 j.2) else m.data.find j := by
  induction C generalizing m with
  | nil => simp [h]
  | cons c C ih =>
    simp only [List.foldl_cons]
    obtain ⟨a1, a2, a3⟩ := inner_fold L (fun r => f r c) c m h
    obtain ⟨h1, h2, h3⟩ := ih _ a2
    refine ⟨h1.trans a1, h2, fun j => ?_⟩
    rw [h3, a3]
    by_cases hc : j.2 = c
    · subst hc
      by_cases hcond : j.1 ∈ L ∧ f j.1 j.2 ≠ 0
      · simp [hcond]
      · have : ¬ (j.2 ∈ C ∧ j.1 ∈ L ∧ f j.1 j.2 ≠ 0) := fun hx => hcond hx.2
        rw [if_neg this, if_neg (fun hx => hcond hx.2), if_neg (fun hx => hcond hx.2)]
    · simp [hc]

omit [DecidableEq K] in
theorem product_fold (row : List (Index × K)) (chk : Index → K × Bool) (c : Nat) (z : K)
    (hchk : ∀ i, (chk i).2 = false → (chk i).1 = 0) :
    row.foldl (fun p e => if (chk (e.1.2, c)).2 then p + e.2 * (chk (e.1.2, c)).1 else p) z
      = z + (row.map (fun e => e.2 * (chk (e.1.2, c)).1)).sum := by
  rw [← foldl_add]
  congr 1
  funext p e
  split
  · rfl
  · rename_i h
    rw [hchk _ (by simpa using h)]; simp

theorem mulGen_find (rows : Nat) (row : Nat → List (Index × K)) (cols : Nat)
    (chk : Index → K × Bool) (hchk : ∀ i, (chk i).2 = false → (chk i).1 = 0) :
    let m := Mat.mulGen rows row cols chk
    let p := fun r c => ((row r).map (fun e => e.2 * (chk (e.1.2, c)).1)).sum
    m.size = (rows, cols) ∧ Increasing m.data ∧
    ∀ j, m.data.find j = if j.2 < cols ∧ j.1 < rows ∧ p j.1 j.2 ≠ 0 then some (p j.1 j.2)
      else none := by
  intro m p
  have hinc : Increasing (Mat.ofSize rows cols : Mat K).data := by simp [Mat.ofSize, Increasing]
  obtain ⟨h1, h2, h3⟩ := outer_fold (List.range cols) (List.range rows) p (Mat.ofSize rows cols) hinc
  have hm : m = (List.range cols).foldl (fun (res : Mat K) c => (List.range rows).foldl
      (fun (res : Mat K) r => if p r c ≠ 0 then (⟨res.size, res.data.set (r, c) (p r c)⟩ : Mat K)
        else res) res) (Mat.ofSize rows cols) := by
    show Mat.mulGen rows row cols chk = _
    unfold Mat.mulGen
    congr 1
    funext res c
    congr 1
    funext res r
    simp only [product_fold _ _ _ _ hchk, zero_add]
    rfl
  rw [hm]
  refine ⟨h1, h2, fun j => ?_⟩
  rw [h3]
  simp [Mat.ofSize, Data.find_nil]

end

section
variable [Ring K]

theorem get_filter_row {m : Data K} (r k : Nat) :
    Data.get (m.filter (fun e => e.1.1 == r)) (r, k) = m.get (r, k) := by
  rw [Data.get_eq, Data.get_eq, Data.find_filter m (fun i => i.1 == r)]
  simp

/-- Row sum used by the product. -/
theorem row_sum {m : Data K} (h : Increasing m) (r n : Nat) (hn : ∀ e ∈ m, e.1.2 < n)
    (g : Nat → K) :
    ((m.filter (fun e => e.1.1 == r)).map (fun e => e.2 * g e.1.2)).sum
      = ∑ k ∈ Finset.range n, m.get (r, k) * g k := by
  have hnd := Data.inc_nodup (Data.inc_filter h (fun e => e.1.1 == r))
  rw [sum_elems hnd (fun i v => v * g i.2) (by simp)
    ((Finset.range n).image (fun k => (r, k)))]
  · rw [Finset.sum_image (by intro a _ b _ hab; simpa using hab)]
    exact Finset.sum_congr rfl (fun k _ => by rw [get_filter_row])
  · intro e he
    rw [List.mem_filter] at he
    rw [Finset.mem_image]
    refine ⟨e.1.2, by simpa using hn e he.1, ?_⟩
    have := he.2
    simp only [beq_iff_eq] at this
    rw [← this]

/-- Matrix-vector loop. -/
theorem mulLoop (es : List (Index × K)) (vs vd : List K) (rowOf colOf : Index → Nat)
    (hr : ∀ e ∈ es, rowOf e.1 < vd.length) (hc : ∀ e ∈ es, colOf e.1 < vs.length) :
    ∃ y, es.foldlM (fun vd e => do
      let x ← raw vs (colOf e.1)
      let y ← raw vd (rowOf e.1)
      rawSet vd (rowOf e.1) (y + e.2 * x)) vd = .ok y ∧ y.length = vd.length ∧
      ∀ i, y.getD i 0 = vd.getD i 0
        + (es.map (fun e => if rowOf e.1 = i then e.2 * vs.getD (colOf e.1) 0 else 0)).sum := by
  induction es generalizing vd with
  | nil => exact ⟨vd, rfl, rfl, by simp⟩
  | cons e es ih =>
    rw [List.foldlM_cons]
    have h1 := hr e (by simp)
    have h2 := hc e (by simp)
    have e1 : raw vs (colOf e.1) = .ok (vs.getD (colOf e.1) 0) := by
      simp [raw, List.getElem?_eq_getElem h2]
    have e2 : raw vd (rowOf e.1) = .ok (vd.getD (rowOf e.1) 0) := by
      simp [raw, List.getElem?_eq_getElem h1]
    rw [e1, e2]
    simp only [bind_ok]
    unfold rawSet
    rw [if_pos h1]
    simp only [bind_ok]
    obtain ⟨y, hy, hl, hv⟩ := ih (vd.set (rowOf e.1) (vd.getD (rowOf e.1) 0 + e.2 * vs.getD (colOf e.1) 0))
      (fun x hx => by rw [List.length_set]; exact hr x (by simp [hx]))
      (fun x hx => hc x (by simp [hx]))
    refine ⟨y, hy, by rw [hl, List.length_set], fun i => ?_⟩
    rw [hv, List.map_cons, List.sum_cons]
    by_cases hi : rowOf e.1 = i
    · subst hi
      rw [if_pos rfl, ← add_assoc]
      congr 1
      rw [List.getD_eq_getElem?_getD, List.getElem?_set_self h1]
      rfl
    · rw [if_neg hi, zero_add, List.getD_eq_getElem?_getD, List.getElem?_set_ne hi,
        ← List.getD_eq_getElem?_getD]

end

end Verif.Sparse
