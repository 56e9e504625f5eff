import Verif.Sparse.Spec
import Verif.Loop
import Mathlib.Algebra.BigOperators.Group.List.Lemmas
import Mathlib.Algebra.BigOperators.Intervals
import Mathlib.Tactic.Abel
import Mathlib.Tactic.Ring

/-! # Lemmas on the sorted association list -/

namespace Verif.Sparse

open Verif.Res

variable {K : Type}

theorem ltI_iff {a b : Index} : ltI a b = true ↔ a.1 < b.1 ∨ (a.1 = b.1 ∧ a.2 < b.2) := by
  simp [ltI]

theorem ltI_irrefl (a : Index) : ltI a a = false := by simp [ltI]

theorem ltI_trans {a b c : Index} (h1 : ltI a b = true) (h2 : ltI b c = true) :
    ltI a c = true := by
  rw [ltI_iff] at *; omega

theorem ltI_total {a b : Index} (h1 : ltI a b = false) (h2 : a ≠ b) : ltI b a = true := by
  have h1 : ¬ ltI a b = true := by simp [h1]
  rw [ltI_iff] at *
  have : a.1 ≠ b.1 ∨ a.2 ≠ b.2 := by
    by_contra h; push Not at h; exact h2 (Prod.ext h.1 h.2)
  omega

theorem ltI_ne {a b : Index} (h : ltI a b = true) : a ≠ b := by
  rintro rfl; rw [ltI_irrefl] at h; cases h

theorem inc_cons {e : Index × K} {m : List (Index × K)} :
    Increasing (e :: m) ↔ (∀ x ∈ m, ltI e.1 x.1 = true) ∧ Increasing m := by
  unfold Increasing
  rw [List.pairwise_cons]
  simp only [ltI_iff]

namespace Data

theorem find_nil (i : Index) : find ([] : Data K) i = none := rfl

theorem find_cons (e : Index × K) (m : Data K) (i : Index) :
    find (e :: m) i = if e.1 = i then some e.2 else find m i := by
  unfold find
  by_cases h : e.1 = i
  · simp [h]
  · simp [h]

theorem find_none_of_lt {m : Data K} {i : Index} (h : ∀ x ∈ m, ltI i x.1 = true) :
    find m i = none := by
  induction m with
  | nil => rfl
  | cons e m ih =>
    rw [find_cons, if_neg (ltI_ne (h e (by simp))).symm]
    exact ih (fun x hx => h x (by simp [hx]))

theorem mem_iff {m : Data K} (h : Increasing m) {i : Index} {v : K} :
    (i, v) ∈ m ↔ find m i = some v := by
  induction m with
  | nil => simp [find_nil]
  | cons e m ih =>
    rw [inc_cons] at h
    rw [find_cons, List.mem_cons, ih h.2]
    by_cases he : e.1 = i
    · subst he
      rw [if_pos rfl, find_none_of_lt h.1]
      constructor
      · rintro (h | h)
        · rw [← h]
        · cases h
      · intro h
        left; cases h; rfl
    · rw [if_neg he]
      constructor
      · rintro (rfl | h)
        · exact absurd rfl he
        · exact h
      · exact .inr

section
variable [Zero K]

theorem modify_keys {m : Data K} {i : Index} {f : K → K} {P : Index → Prop} (hi : P i)
    (hm : ∀ x ∈ m, P x.1) : ∀ x ∈ m.modify i f, P x.1 := by
  induction m with
  | nil =>
    intro x hx
    simp only [modify, List.mem_singleton] at hx
    subst hx; exact hi
  | cons e m ih =>
    intro x hx
    unfold modify at hx
    split at hx
    · rcases List.mem_cons.1 hx with rfl | hx
      · exact hi
      · exact hm x hx
    · split at hx
      · rcases List.mem_cons.1 hx with rfl | hx
        · exact hi
        · exact hm x (by simp [hx])
      · rcases List.mem_cons.1 hx with rfl | hx
        · exact hm _ (by simp)
        · exact ih (fun x hx => hm x (by simp [hx])) x hx

theorem inc_modify {m : Data K} (h : Increasing m) (i : Index) (f : K → K) :
    Increasing (m.modify i f) := by
  induction m with
  | nil => simp [modify, Increasing]
  | cons e m ih =>
    rw [inc_cons] at h
    unfold modify
    split
    · rename_i hlt
      rw [inc_cons, inc_cons]
      refine ⟨?_, h.1, h.2⟩
      intro x hx
      rcases List.mem_cons.1 hx with rfl | hx
      · exact hlt
      · exact ltI_trans hlt (h.1 x hx)
    · rename_i hlt
      split
      · rename_i heq
        subst heq
        rw [inc_cons]
        exact ⟨h.1, h.2⟩
      · rename_i hne
        rw [inc_cons]
        refine ⟨modify_keys (P := fun k => ltI e.1 k = true) ?_ h.1, ih h.2⟩
        exact ltI_total (by simpa using hlt) (Ne.symm hne)

theorem find_modify {m : Data K} (h : Increasing m) (i j : Index) (f : K → K) :
    find (m.modify i f) j = if j = i then some (f ((find m i).getD 0)) else find m j := by
  induction m with
  | nil =>
    simp only [modify, find_cons, find_nil]
    by_cases hij : i = j
    · simp [hij]
    · rw [if_neg hij, if_neg (Ne.symm hij)]
  | cons e m ih =>
    rw [inc_cons] at h
    unfold modify
    split
    · rename_i hlt
      have hnone : find (e :: m) i = none := by
        apply find_none_of_lt
        intro x hx
        rcases List.mem_cons.1 hx with rfl | hx
        · exact hlt
        · exact ltI_trans hlt (h.1 x hx)
      rw [find_cons, hnone]
      by_cases hij : i = j
      · simp [hij]
      · rw [if_neg hij, if_neg (Ne.symm hij)]
    · split
      · rename_i heq
        rw [find_cons, find_cons, find_cons, if_pos heq]
        by_cases hij : i = j
        · simp [hij]
        · rw [if_neg hij, if_neg (Ne.symm hij), if_neg (heq ▸ hij)]
      · rename_i hne
        rw [find_cons, find_cons, find_cons, if_neg hne, ih h.2]
        by_cases hej : e.1 = j
        · rw [if_pos hej, if_neg (hej ▸ hne), if_pos hej]
        · rw [if_neg hej, if_neg hej]

theorem find_set {m : Data K} (h : Increasing m) (i j : Index) (v : K) :
    find (m.set i v) j = if j = i then some v else find m j := find_modify h i j _

theorem inc_set {m : Data K} (h : Increasing m) (i : Index) (v : K) : Increasing (m.set i v) :=
  inc_modify h i _

theorem get_eq (m : Data K) (i : Index) : m.get i = (m.find i).getD 0 := by
  unfold get; cases m.find i <;> rfl

theorem checkedGet_eq (m : Data K) (i : Index) : m.checkedGet i = (m.get i, m.hasIndex i) := by
  unfold checkedGet get hasIndex; cases m.find i <;> rfl

end

theorem removeAt_sub {m : Data K} {i : Index} {x : Index × K} (h : x ∈ m.removeAt i) : x ∈ m := by
  induction m with
  | nil => exact h
  | cons e m ih =>
    unfold removeAt at h
    split at h
    · simp [h]
    · rcases List.mem_cons.1 h with rfl | h
      · simp
      · simp [ih h]

theorem inc_removeAt {m : Data K} (h : Increasing m) (i : Index) : Increasing (m.removeAt i) := by
  induction m with
  | nil => exact h
  | cons e m ih =>
    rw [inc_cons] at h
    unfold removeAt
    split
    · exact h.2
    · rw [inc_cons]
      exact ⟨fun x hx => h.1 x (removeAt_sub hx), ih h.2⟩

theorem find_removeAt {m : Data K} (h : Increasing m) (i j : Index) :
    find (m.removeAt i) j = if j = i then none else find m j := by
  induction m with
  | nil => simp [removeAt, find_nil]
  | cons e m ih =>
    rw [inc_cons] at h
    unfold removeAt
    split
    · rename_i heq
      rw [find_cons]
      by_cases hj : j = i
      · rw [if_pos hj, hj, ← heq, find_none_of_lt h.1]
      · rw [if_neg hj, if_neg (by rw [heq]; exact Ne.symm hj)]
    · rename_i hne
      rw [find_cons, find_cons, ih h.2]
      by_cases hej : e.1 = j
      · rw [if_pos hej, if_neg (hej ▸ hne), if_pos hej]
      · rw [if_neg hej, if_neg hej]

theorem resize_eq (m : Data K) (s : Index) :
    m.resizeData s = m.filter (fun e => decide (e.1.1 < s.1 ∧ e.1.2 < s.2)) := by
  induction m with
  | nil => rfl
  | cons e m ih =>
    unfold resizeData
    rw [List.filter_cons, ih]
    by_cases h : e.1.1 < s.1 ∧ e.1.2 < s.2
    · rw [if_pos h, if_pos (by simpa using h)]
    · rw [if_neg h, if_neg (by simpa using h)]

theorem find_filter (m : Data K) (p : Index → Bool) (j : Index) :
    find (m.filter (fun e => p e.1)) j = if p j then find m j else none := by
  induction m with
  | nil => simp [find_nil]
  | cons e m ih =>
    rw [List.filter_cons]
    split
    · rename_i hp
      rw [find_cons, find_cons, ih]
      by_cases hej : e.1 = j
      · rw [if_pos hej, if_pos hej, if_pos (hej ▸ hp)]
      · rw [if_neg hej, if_neg hej]
    · rename_i hp
      rw [find_cons, ih]
      by_cases hej : e.1 = j
      · rw [if_neg (hej ▸ hp), if_neg (hej ▸ hp)]
      · rw [if_neg hej]

theorem inc_filter {m : Data K} (h : Increasing m) (p : Index × K → Bool) :
    Increasing (m.filter p) := List.Pairwise.filter p h

theorem find_map (m : Data K) (f : K → K) (j : Index) :
    find (m.map (fun e => (e.1, f e.2))) j = (find m j).map f := by
  induction m with
  | nil => rfl
  | cons e m ih =>
    rw [List.map_cons, find_cons, find_cons, ih]
    split <;> rfl

theorem inc_map {m : Data K} (h : Increasing m) (f : K → K) :
    Increasing (m.map (fun e => (e.1, f e.2))) := by
  unfold Increasing at *
  rw [List.pairwise_map]
  exact h

section
variable [Zero K]

/-- Storing a sequence of elements: the last one with a given key wins. -/
theorem find_setAll {m : Data K} (h : Increasing m) (es : List (Index × K)) (g : Index → Index)
    (j : Index) :
    Increasing (es.foldl (fun (m : Data K) e => m.set (g e.1) e.2) m) ∧
    find (es.foldl (fun (m : Data K) e => m.set (g e.1) e.2) m) j
      = ((es.reverse.find? (fun e => g e.1 == j)).map (·.2)).or (find m j) := by
  induction es generalizing m with
  | nil => exact ⟨h, by simp⟩
  | cons e es ih =>
    rw [List.foldl_cons]
    obtain ⟨h1, h2⟩ := ih (inc_set h (g e.1) e.2)
    refine ⟨h1, ?_⟩
    rw [h2, find_set h, List.reverse_cons, List.find?_append]
    by_cases hej : g e.1 = j
    · rw [if_pos hej.symm]
      cases hf : es.reverse.find? (fun e => g e.1 == j) with
      | none => simp [hej]
      | some x => simp
    · rw [if_neg (Ne.symm hej)]
      cases hf : es.reverse.find? (fun e => g e.1 == j) with
      | none => simp [hej]
      | some x => simp

end

/-- Distinct sources: lookup among a list with unique keys. -/
theorem find_of_mem_unique {es : List (Index × K)} (hd : (es.map Prod.fst).Nodup) {i : Index}
    {v : K} (h : (i, v) ∈ es) : find es i = some v := by
  induction es with
  | nil => simp at h
  | cons e es ih =>
    rw [List.map_cons, List.nodup_cons] at hd
    rw [find_cons]
    rcases List.mem_cons.1 h with rfl | h
    · simp
    · have : e.1 ≠ i := by
        rintro rfl
        exact hd.1 (List.mem_map.2 ⟨_, h, rfl⟩)
      rw [if_neg this]
      exact ih hd.2 h

theorem inc_nodup {m : Data K} (h : Increasing m) : (m.map Prod.fst).Nodup := by
  unfold Increasing at h
  rw [List.Nodup, List.pairwise_map]
  exact h.imp (fun hab => by rintro heq; rw [heq] at hab; omega)

theorem find_none_iff {m : List (Index × K)} {i : Index} :
    find m i = none ↔ ∀ e ∈ m, e.1 ≠ i := by
  induction m with
  | nil => simp [find_nil]
  | cons e m ih =>
    rw [find_cons]
    by_cases h : e.1 = i
    · simp [h]
    · rw [if_neg h, ih]; simp [h]

/-- Two enumerations with the same keys and values and unique keys have the same lookups. -/
theorem find_perm {a b : List (Index × K)} (ha : (a.map Prod.fst).Nodup)
    (h : ∀ e, e ∈ a ↔ e ∈ b) (i : Index) : find a i = find b i := by
  cases hf : find b i with
  | none =>
    rw [find_none_iff] at hf ⊢
    exact fun e he => hf e ((h e).1 he)
  | some v =>
    have : (i, v) ∈ b := by
      unfold find at hf
      rw [Option.map_eq_some_iff] at hf
      obtain ⟨e, he, rfl⟩ := hf
      have h1 := List.mem_of_find?_eq_some he
      have h2 := List.find?_some he
      simp only [beq_iff_eq] at h2
      rw [← h2]; exact h1
    exact find_of_mem_unique ha ((h _).2 this)

/-- Two increasing lists with the same lookups are equal. -/
theorem ext_of_find {a b : Data K} (ha : Increasing a) (hb : Increasing b)
    (h : ∀ i, find a i = find b i) : a = b := by
  have hmem : ∀ x, x ∈ a ↔ x ∈ b := by
    rintro ⟨i, v⟩
    rw [mem_iff ha, mem_iff hb, h]
  have nd : ∀ {m : Data K}, Increasing m → m.Nodup := fun hm => (inc_nodup hm).of_map
  have hp : a.Perm b := (List.perm_ext_iff_of_nodup (nd ha) (nd hb)).2 hmem
  unfold Increasing at ha hb
  exact hp.eq_of_pairwise (fun x y _ _ h1 h2 => by omega) ha hb

end Data

end Verif.Sparse
