import Verif.Sparse.Product

/-! # Binary search and views -/

namespace Verif.Sparse

open Verif.Res

variable {K : Type}

namespace Fast

theorem inc_get {m : List (Index × K)} (h : Increasing m) {p q : Nat} {a b : Index × K}
    (hp : m[p]? = some a) (hq : m[q]? = some b) (hpq : p < q) : ltI a.1 b.1 = true := by
  obtain ⟨h1, rfl⟩ := List.getElem?_eq_some_iff.1 hp
  obtain ⟨h2, rfl⟩ := List.getElem?_eq_some_iff.1 hq
  rw [ltI_iff]
  exact List.pairwise_iff_getElem.1 h p q h1 h2 hpq

theorem lowerBound_spec {m : Fast K} (h : Increasing m) (i : Index) (first len : Nat)
    (hlen : first + len ≤ m.length)
    (hlo : ∀ p e, p < first → m[p]? = some e → ltI e.1 i = true)
    (hhi : ∀ p e, first + len ≤ p → m[p]? = some e → ltI e.1 i = false) :
    (∀ p e, p < lowerBound m i first len → m[p]? = some e → ltI e.1 i = true) ∧
    (∀ p e, lowerBound m i first len ≤ p → m[p]? = some e → ltI e.1 i = false) := by
  induction len using Nat.strong_induction_on generalizing first with
  | _ len ih =>
    unfold lowerBound
    split
    · rename_i h0
      subst h0
      exact ⟨hlo, by simpa using hhi⟩
    · rename_i h0
      have hlt : first + len / 2 < m.length := by omega
      have he : m[first + len / 2]? = some m[first + len / 2] := List.getElem?_eq_getElem hlt
      simp only [he]
      split
      · rename_i hl
        apply ih _ (by omega) _ (by omega)
        · intro p e hp hpe
          rcases Nat.lt_or_ge p (first + len / 2) with hp2 | hp2
          · exact ltI_trans (inc_get h hpe he hp2) hl
          · have : p = first + len / 2 := by omega
            subst this
            rw [he] at hpe; cases hpe; exact hl
        · intro p e hp; exact hhi p e (by omega)
      · rename_i hl
        apply ih _ (by omega) _ (by omega) hlo
        intro p e hp hpe
        rcases Nat.lt_or_ge (first + len / 2) p with hp2 | hp2
        · by_contra hc
          simp only [Bool.not_eq_false] at hc
          exact hl (ltI_trans (inc_get h he hpe hp2) hc)
        · have : p = first + len / 2 := by omega
          subst this
          rw [he] at hpe; cases hpe; simpa using hl

theorem search_some {m : Fast K} {i : Index} {p : Nat} (h : search m i = some p) :
    ∃ v, m[p]? = some (i, v) := by
  unfold search at h
  simp only at h
  split at h
  · rename_i e he
    split at h
    · cases h
    · rename_i hne
      simp only [ne_eq, not_not] at hne
      cases h
      exact ⟨e.2, by rw [he, ← hne]⟩
  · cases h

theorem search_of_mem {m : Fast K} (hm : Increasing m) {i : Index} {v : K} {q : Nat}
    (hq : m[q]? = some (i, v)) : search m i = some q := by
  obtain ⟨h1, h2⟩ := lowerBound_spec hm i 0 m.length (by omega) (by omega)
    (fun p e hp hpe => by
      have := (List.getElem?_eq_some_iff.1 hpe).1; omega)
  have hql := (List.getElem?_eq_some_iff.1 hq).1
  have hle : lowerBound m i 0 m.length ≤ q := by
    by_contra hc
    have := h1 q _ (by omega) hq
    rw [ltI_irrefl] at this; cases this
  have hge : ¬ lowerBound m i 0 m.length < q := by
    intro hc
    have he := List.getElem?_eq_getElem (l := m) (i := lowerBound m i 0 m.length) (by omega)
    have := h2 _ _ (le_refl _) he
    rw [inc_get hm he hq hc] at this; cases this
  have heq : lowerBound m i 0 m.length = q := by omega
  unfold search
  simp [heq, hq]

theorem search_none {m : Fast K} (hm : Increasing m) {i : Index} :
    search m i = none ↔ Data.find m i = none := by
  rw [Data.find_none_iff]
  constructor
  · rintro h ⟨j, v⟩ he rfl
    obtain ⟨q, hq⟩ := List.getElem?_of_mem he
    rw [search_of_mem hm hq] at h; cases h
  · intro h
    cases hs : search m i with
    | none => rfl
    | some p =>
      obtain ⟨v, hv⟩ := search_some hs
      exact absurd rfl (h _ (List.mem_of_getElem? hv))

theorem search_value {m : Fast K} (hm : Increasing m) {i : Index} {v : K} :
    Data.find m i = some v ↔ ∃ p, search m i = some p ∧ m[p]? = some (i, v) := by
  rw [← Data.mem_iff hm]
  constructor
  · intro h
    obtain ⟨q, hq⟩ := List.getElem?_of_mem h
    exact ⟨q, search_of_mem hm hq, hq⟩
  · rintro ⟨p, _, h⟩
    exact List.mem_of_getElem? h

theorem checkedGet_eq [Zero K] {m : Fast K} (hm : Increasing m) (i : Index) :
    checkedGet m i = Data.checkedGet m i ∧ get m i = Data.get m i ∧
      hasIndex m i = Data.hasIndex m i := by
  cases hf : Data.find m i with
  | none =>
    have := (search_none hm).2 hf
    simp [checkedGet, get, hasIndex, Data.checkedGet, Data.get, Data.hasIndex, this, hf]
  | some v =>
    obtain ⟨p, h1, h2⟩ := (search_value hm).1 hf
    simp [checkedGet, get, hasIndex, Data.checkedGet, Data.get, Data.hasIndex, h1, hf, h2]

end Fast

namespace Block

theorem isValid_iff {b : Block} {i : Index} : b.isValid i = true ↔
    b.from_.1 ≤ i.1 ∧ i.1 < b.from_.1 + b.size.1 ∧ b.from_.2 ≤ i.2 ∧
      i.2 < b.from_.2 + b.size.2 := by
  simp [isValid, and_assoc]

theorem elems_eq (b : Block) (src : Data K) : b.elems src
    = (src.filter (fun e => b.isValid e.1)).map
        (fun e => ((e.1.1 - b.from_.1, e.1.2 - b.from_.2), e.2)) := by
  induction src with
  | nil => rfl
  | cons e src ih =>
    unfold elems
    rw [List.filter_cons, ih]
    split <;> simp_all

theorem inc_elems {b : Block} {src : Data K} (h : Increasing src) : Increasing (b.elems src) := by
  rw [elems_eq]
  unfold Increasing
  rw [List.pairwise_map, List.pairwise_iff_forall_sublist]
  intro x y hxy
  have h1 := List.pairwise_iff_forall_sublist.1 (Data.inc_filter h (fun e => b.isValid e.1)) hxy
  have hx : x ∈ src.filter (fun e => b.isValid e.1) := hxy.subset (by simp)
  have hy : y ∈ src.filter (fun e => b.isValid e.1) := hxy.subset (by simp)
  rw [List.mem_filter, isValid_iff] at hx hy
  simp only
  omega

theorem mem_elems {b : Block} {src : Data K} (h : Increasing src) {i : Index} {v : K} :
    (i, v) ∈ b.elems src ↔ (i.1 < b.size.1 ∧ i.2 < b.size.2) ∧
      src.find (i.1 + b.from_.1, i.2 + b.from_.2) = some v := by
  rw [elems_eq, List.mem_map]
  constructor
  · rintro ⟨e, he, heq⟩
    rw [List.mem_filter, isValid_iff] at he
    obtain ⟨h1, h2, h3, h4, h5⟩ := he
    cases heq
    refine ⟨by simp only; omega, ?_⟩
    rw [← Data.mem_iff h]
    have : (e.1.1 - b.from_.1 + b.from_.1, e.1.2 - b.from_.2 + b.from_.2) = e.1 := by
      apply Prod.ext <;> simp only <;> omega
    simp only [this]
    exact h1
  · rintro ⟨h1, h2⟩
    rw [← Data.mem_iff h] at h2
    refine ⟨_, List.mem_filter.2 ⟨h2, ?_⟩, ?_⟩
    · rw [isValid_iff]; simp only; omega
    · simp

theorem find_elems {b : Block} {src : Data K} (h : Increasing src) (i : Index) :
    Data.find (b.elems src) i = if i.1 < b.size.1 ∧ i.2 < b.size.2 then
      src.find (i.1 + b.from_.1, i.2 + b.from_.2) else none := by
  cases hf : Data.find (b.elems src) i with
  | some v =>
    rw [← Data.mem_iff (inc_elems h), mem_elems h] at hf
    rw [if_pos hf.1, hf.2]
  | none =>
    split
    · rename_i hin
      cases hs : src.find (i.1 + b.from_.1, i.2 + b.from_.2) with
      | none => rfl
      | some v =>
        have := (Data.mem_iff (inc_elems h)).1 ((mem_elems (b := b) h).2 ⟨hin, hs⟩)
        rw [this] at hf; cases hf
    · rfl

theorem foldl_removeAt {src : Data K} (h : Increasing src) (b : Block) (es : List (Index × K)) :
    Increasing (es.foldl (fun s e => b.removeAt s e.1) src) ∧
    ∀ j, Data.find (es.foldl (fun s e => b.removeAt s e.1) src) j
      = if ∃ e ∈ es, b.sourceIndex e.1 = j then none else src.find j := by
  induction es generalizing src with
  | nil => simp [h]
  | cons e es ih =>
    rw [List.foldl_cons]
    obtain ⟨h1, h2⟩ := ih (Data.inc_removeAt h (b.sourceIndex e.1))
    refine ⟨h1, fun j => ?_⟩
    have h2 := h2 j
    rw [show Data.removeAt src (b.sourceIndex e.1) = b.removeAt src e.1 from rfl] at h2
    rw [h2]
    rw [show b.removeAt src e.1 = Data.removeAt src (b.sourceIndex e.1) from rfl]
    rw [Data.find_removeAt h]
    simp only [List.mem_cons, exists_eq_or_imp]
    by_cases hj : b.sourceIndex e.1 = j
    · simp [hj]
    · simp only [or_iff_right hj, if_neg (Ne.symm hj)]

theorem clear_spec {b : Block} {src : Data K} (h : Increasing src) :
    Increasing (b.clear src) ∧
    ∀ j, Data.find (b.clear src) j = if b.isValid j then none else src.find j := by
  obtain ⟨h1, h2⟩ := foldl_removeAt h b (b.elems src)
  refine ⟨h1, fun j => ?_⟩
  unfold clear
  rw [h2]
  by_cases hj : b.isValid j = true
  · rw [if_pos hj]
    split
    · rfl
    · rename_i hn
      cases hs : src.find j with
      | none => rfl
      | some v =>
        exfalso
        apply hn
        rw [isValid_iff] at hj
        have hjj : (j.1 - b.from_.1 + b.from_.1, j.2 - b.from_.2 + b.from_.2) = j := by
          apply Prod.ext <;> simp only <;> omega
        refine ⟨((j.1 - b.from_.1, j.2 - b.from_.2), v), ?_, hjj⟩
        rw [mem_elems h]
        refine ⟨by simp only; omega, ?_⟩
        simp only [hjj, hs]
  · rw [if_neg hj, if_neg]
    rintro ⟨⟨i, v⟩, he, rfl⟩
    rw [mem_elems h] at he
    apply hj
    rw [isValid_iff]
    simp only [sourceIndex]
    omega

theorem foldl_set [Zero K] {b : Block} (es : List (Index × K)) (src : Data K) :
    es.foldl (fun s e => b.set s e.1 e.2) src
      = es.foldl (fun (m : Data K) e => m.set (b.sourceIndex e.1) e.2) src := rfl

end Block

namespace Transpose

theorem idx_idx (i : Index) : idx (idx i) = i := rfl

theorem mem_elems {src : Data K} (h : Increasing src) {i : Index} {v : K} :
    (i, v) ∈ elems src ↔ src.find (i.2, i.1) = some v := by
  unfold elems
  rw [List.mem_map]
  constructor
  · rintro ⟨e, he, heq⟩
    cases heq
    exact (Data.mem_iff h).1 he
  · intro hf
    exact ⟨((i.2, i.1), v), (Data.mem_iff h).2 hf, rfl⟩

theorem nodup_elems {src : Data K} (h : Increasing src) : ((elems src).map Prod.fst).Nodup := by
  unfold elems
  rw [List.map_map]
  have := Data.inc_nodup h
  have h2 : (src.map (Prod.fst ∘ fun e => (idx e.1, e.2))) = (src.map Prod.fst).map idx := by
    rw [List.map_map]; rfl
  rw [h2]
  exact this.map (fun a b hab => by have := congrArg idx hab; rwa [idx_idx, idx_idx] at this)

theorem find_elems {src : Data K} (h : Increasing src) (i : Index) :
    Data.find (elems src) i = src.find (i.2, i.1) := by
  cases hs : src.find (i.2, i.1) with
  | some v => exact Data.find_of_mem_unique (nodup_elems h) ((mem_elems h).2 hs)
  | none =>
    rw [Data.find_none_iff]
    rintro ⟨j, v⟩ he rfl
    rw [mem_elems h, hs] at he; cases he

end Transpose

/-- Copying an enumeration with distinct keys into a map. -/
theorem find_copyFrom [Zero K] {m : Data K} {es : List (Index × K)} :
    Increasing (Data.copyFrom m es) ∧
    (∀ j, Data.find (Data.copyFrom m es) j = (es.reverse.find? (fun e => e.1 == j)).map (·.2)) ∧
    ((es.map Prod.fst).Nodup → ∀ j, Data.find (Data.copyFrom m es) j = Data.find es j) := by
  have h0 : Increasing ([] : Data K) := by simp [Increasing]
  have hj := fun j => Data.find_setAll h0 es id j
  refine ⟨(hj (0, 0)).1, fun j => ?_, fun hd j => ?_⟩
  · have := (hj j).2
    simp only [id] at this
    rw [show Data.copyFrom m es = es.foldl (fun (m : Data K) e => m.set e.1 e.2) [] from rfl, this]
    simp [Data.find_nil]
  · have := (hj j).2
    simp only [id] at this
    rw [show Data.copyFrom m es = es.foldl (fun (m : Data K) e => m.set e.1 e.2) [] from rfl, this]
    have h2 := Data.find_perm (a := es.reverse) (b := es)
      (by rw [List.map_reverse]; exact List.nodup_reverse.2 hd) (by simp) j
    rw [← h2]
    simp [Data.find]

end Verif.Sparse
