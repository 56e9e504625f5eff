import Verif.Sparse.Print
import Verif.Sparse.Props

/-! # C133: the text output of sparse matrices -/

namespace Verif.Sparse

open Verif.Res

variable {K : Type}

/-- What is to be seen at a place: the text of the stored element, `0` if there is none -/
def shown (fmt : K → Str) (m : Mat K) (r c : Nat) : Str :=
  match m.data.find (r, c) with
  | some v => fmt v
  | none => ['0']

/-- The width of a column: one more than the longest text in it -/
def width (fmt : K → Str) (m : Mat K) (c : Nat) : Nat :=
  ((List.range m.size.1).map fun r => (shown fmt m r c).length + 1).foldl max 0

/-- A text padded with spaces -/
def pad (w : Nat) (s : Str) : Str := s ++ List.replicate (w - s.length) ' '

/-! ## The loops -/

theorem raw_map {α : Type} (f : Nat → α) {n i : Nat} (h : i < n) : raw ((List.range n).map f) i = .ok (f i) := by
  simp [raw, h]

theorem rawSet_map {α : Type} (f : Nat → α) {n i : Nat} (h : i < n) (a : α) :
    rawSet ((List.range n).map f) i a = .ok ((List.range n).map (Function.update f i a)) := by
  unfold rawSet
  rw [if_pos (by simpa using h)]
  congr 1
  apply List.ext_getElem
  · simp
  · intro j h1 h2
    simp only [List.getElem_set, List.getElem_map, List.getElem_range, Function.update_apply]
    by_cases hj : i = j
    · simp [hj]
    · simp [hj, Ne.symm hj]

theorem replicate_map {α : Type} (n : Nat) (a : α) : List.replicate n a = (List.range n).map fun _ => a := by
  simp

theorem cellIndex_eq {size i : Index} (hs : size.1 * size.2 < 4294967296) (h1 : i.1 < size.1) (h2 : i.2 < size.2) :
    cellIndex size i = i.2 + i.1 * size.2 ∧ i.2 + i.1 * size.2 < size.1 * size.2 := by
  have : (i.1 + 1) * size.2 ≤ size.1 * size.2 := Nat.mul_le_mul_right _ h1
  rw [Nat.add_mul, Nat.one_mul] at this
  have h3 : i.2 + i.1 * size.2 < size.1 * size.2 := by omega
  refine ⟨?_, h3⟩
  unfold cellIndex u32
  rw [Nat.mod_eq_of_lt (a := i.1 * size.2) (by omega), Nat.mod_eq_of_lt (by omega)]

theorem index_inj {C a b c d : Nat} (h1 : a < C) (h2 : c < C) (h : a + b * C = c + d * C) : a = c ∧ b = d := by
  have e1 : (a + b * C) % C = a := by rw [Nat.add_mul_mod_self_right, Nat.mod_eq_of_lt h1]
  have e2 : (c + d * C) % C = c := by rw [Nat.add_mul_mod_self_right, Nat.mod_eq_of_lt h2]
  have hac : a = c := by rw [← e1, ← e2, h]
  refine ⟨hac, ?_⟩
  have : b * C = d * C := by omega
  exact Nat.eq_of_mul_eq_mul_right (by omega) this

theorem cells_spec (fmt : K → Str) (size : Index) (hs : size.1 * size.2 < 4294967296) (elems : List (Index × K))
    (hin : ∀ e ∈ elems, e.1.1 < size.1 ∧ e.1.2 < size.2) (hd : (elems.map Prod.fst).Nodup) (E : Nat → Str) :
    ∃ E' : Nat → Str,
      elems.foldlM (fun es e => rawSet es (cellIndex size e.1) (fmt e.2)) ((List.range (size.1 * size.2)).map E) =
        .ok ((List.range (size.1 * size.2)).map E') ∧
      ∀ r c, r < size.1 → c < size.2 →
        E' (c + r * size.2) = match Data.find elems (r, c) with | some v => fmt v | none => E (c + r * size.2) := by
  induction elems generalizing E with
  | nil => exact ⟨E, rfl, fun r c _ _ => rfl⟩
  | cons e elems ih =>
    obtain ⟨h1, h2⟩ := hin e (by simp)
    obtain ⟨hi, hlt⟩ := cellIndex_eq hs h1 h2
    rw [List.map_cons, List.nodup_cons] at hd
    obtain ⟨E', hE, hE'⟩ := ih (fun x hx => hin x (by simp [hx])) hd.2 (Function.update E (e.1.2 + e.1.1 * size.2) (fmt e.2))
    refine ⟨E', ?_, fun r c hr hc => ?_⟩
    · rw [List.foldlM_cons, hi, rawSet_map E hlt, bind_ok, hE]
    · rw [hE' r c hr hc, Data.find_cons]
      by_cases h : e.1 = (r, c)
      · rw [if_pos h]
        have : Data.find elems (r, c) = none := by
          rw [Data.find_none_iff]
          intro x hx hx'
          exact hd.1 (List.mem_map.2 ⟨x, hx, by rw [hx', h]⟩)
        rw [this]
        simp [h]
      · rw [if_neg h]
        have : c + r * size.2 ≠ e.1.2 + e.1.1 * size.2 := by
          intro hh
          obtain ⟨a, b⟩ := index_inj hc h2 hh
          exact h (Prod.ext b.symm a.symm)
        rw [Function.update_of_ne this]

theorem widths_row (size : Index) (hs : size.1 * size.2 < 4294967296) (E : Nat → Str) (r : Nat) (hr : r < size.1) (W : Nat → Nat)
    (k : Nat) (hk : k ≤ size.2) :
    (List.range k).foldlM (fun ws c => do
      let e ← raw ((List.range (size.1 * size.2)).map E) (cellIndex size (r, c))
      let w ← raw ws c
      rawSet ws c (max w (e.length + 1))) ((List.range size.2).map W) =
    (.ok ((List.range size.2).map fun c => if c < k then max (W c) ((E (c + r * size.2)).length + 1) else W c) : Res (List Nat)) := by
  induction k with
  | zero => simp; rfl
  | succ k ih =>
    rw [List.range_succ, List.foldlM_append, ih (by omega), bind_ok, List.foldlM_cons]
    obtain ⟨hi, hlt⟩ := cellIndex_eq (i := (r, k)) hs hr (by simp only; omega)
    simp only at hi hlt
    rw [hi, raw_map E hlt, bind_ok, raw_map _ (by omega), bind_ok, rawSet_map _ (by omega), bind_ok]
    show Except.ok _ = Except.ok _
    congr 1
    apply List.map_congr_left
    intro c _
    rw [Function.update_apply]
    by_cases h : c = k
    · simp [h]
    · rw [if_neg h]
      by_cases h' : c < k
      · rw [if_pos h', if_pos (by omega)]
      · rw [if_neg h', if_neg (by omega)]

theorem widths_spec (size : Index) (hs : size.1 * size.2 < 4294967296) (E : Nat → Str) (k : Nat) (hk : k ≤ size.1) :
    (List.range k).foldlM (fun ws r =>
      (List.range size.2).foldlM (fun ws c => do
        let e ← raw ((List.range (size.1 * size.2)).map E) (cellIndex size (r, c))
        let w ← raw ws c
        rawSet ws c (max w (e.length + 1))) ws) (List.replicate size.2 0) =
    (.ok ((List.range size.2).map fun c => ((List.range k).map fun r => (E (c + r * size.2)).length + 1).foldl max 0) :
      Res (List Nat)) := by
  induction k with
  | zero => simp; rfl
  | succ k ih =>
    rw [List.range_succ, List.foldlM_append, ih (by omega), bind_ok, List.foldlM_cons,
      widths_row size hs E k (by omega) _ size.2 le_rfl, bind_ok]
    show Except.ok _ = Except.ok _
    congr 1
    apply List.map_congr_left
    intro c hc
    rw [if_pos (List.mem_range.1 hc), List.map_append, List.foldl_append]
    rfl

theorem line_spec (size : Index) (hs : size.1 * size.2 < 4294967296) (E : Nat → Str) (W : Nat → Nat) (r : Nat) (hr : r < size.1)
    (k : Nat) (hk : k ≤ size.2) :
    (List.range k).foldlM (fun (s : Str) c => do
      let e ← raw ((List.range (size.1 * size.2)).map E) (cellIndex size (r, c))
      let w ← raw ((List.range size.2).map W) c
      .ok (s ++ e ++ List.replicate (w - e.length) ' ')) [] =
    (.ok ((List.range k).flatMap fun c => pad (W c) (E (c + r * size.2))) : Res Str) := by
  induction k with
  | zero => rfl
  | succ k ih =>
    rw [List.range_succ, List.foldlM_append, ih (by omega), bind_ok, List.foldlM_cons]
    obtain ⟨hi, hlt⟩ := cellIndex_eq (i := (r, k)) hs hr (by simp only; omega)
    simp only at hi hlt
    rw [hi, raw_map E hlt, bind_ok, raw_map _ (by omega), bind_ok, bind_ok, List.flatMap_append, List.foldlM_nil]
    show Except.ok _ = Except.ok _
    simp [pad]

/-- **C133.** A matrix whose elements are inside its size, with less than 2^32 places, is printed as a table: one line for each row, in
each line one field for each column, with the text of the stored element or `0`, padded to the width of the column. -/
theorem C133_print_partial (fmt : K → Str) (m : Mat K) (h : Wf m) (hs : m.size.1 * m.size.2 < 4294967296) :
    print fmt m.size m.data =
      .ok ((List.range m.size.1).map fun r =>
        (List.range m.size.2).flatMap fun c => pad (width fmt m c) (shown fmt m r c)) := by
  obtain ⟨E, hE, hE'⟩ := cells_spec fmt m.size hs m.data h.inside (Data.inc_nodup h.inc) (fun _ => ['0'])
  have hc : cells fmt m.size m.data = .ok ((List.range (m.size.1 * m.size.2)).map E) := by
    unfold cells u32
    rw [Nat.mod_eq_of_lt hs, replicate_map]
    exact hE
  have hcell : ∀ r c, r < m.size.1 → c < m.size.2 → E (c + r * m.size.2) = shown fmt m r c := hE'
  unfold print
  rw [hc, bind_ok]
  have hw : colWidths m.size ((List.range (m.size.1 * m.size.2)).map E) = .ok ((List.range m.size.2).map (width fmt m)) := by
    unfold colWidths
    rw [widths_spec m.size hs E m.size.1 le_rfl]
    congr 1
    apply List.map_congr_left
    intro c hc
    unfold width
    congr 1
    apply List.map_congr_left
    intro r hr
    rw [hcell r c (List.mem_range.1 hr) (List.mem_range.1 hc)]
  rw [hw, bind_ok]
  have hl : ∀ r < m.size.1, line m.size ((List.range (m.size.1 * m.size.2)).map E) ((List.range m.size.2).map (width fmt m)) r =
      .ok ((List.range m.size.2).flatMap fun c => pad (width fmt m c) (shown fmt m r c)) := by
    intro r hr
    unfold line
    rw [line_spec m.size hs E (width fmt m) r hr m.size.2 le_rfl]
    congr 1
    apply List.flatMap_congr
    intro c hc
    rw [hcell r c hr (List.mem_range.1 hc)]
  have : ∀ k ≤ m.size.1, (List.range k).foldlM (fun (ls : List Str) r => do
      let l ← line m.size ((List.range (m.size.1 * m.size.2)).map E) ((List.range m.size.2).map (width fmt m)) r
      .ok (ls ++ [l])) [] =
      (.ok ((List.range k).map fun r => (List.range m.size.2).flatMap fun c => pad (width fmt m c) (shown fmt m r c)) :
        Res (List Str)) := by
    intro k
    induction k with
    | zero => intro _; rfl
    | succ k ih =>
      intro hk
      rw [List.range_succ, List.foldlM_append, ih (by omega), bind_ok, List.foldlM_cons, hl k (by omega), bind_ok,
        bind_ok, List.map_append]
      rfl
  exact this m.size.1 le_rfl

/-! ## What the table is good for -/

theorem le_foldl_max (l : List Nat) (a : Nat) : a ≤ l.foldl max a := by
  induction l generalizing a with
  | nil => exact le_rfl
  | cons x l ih => exact (Nat.le_max_left a x).trans (ih _)

theorem mem_le_foldl_max (l : List Nat) (a x : Nat) (h : x ∈ l) : x ≤ l.foldl max a := by
  induction l generalizing a with
  | nil => simp at h
  | cons y l ih =>
    rcases List.mem_cons.1 h with rfl | h
    · exact (Nat.le_max_right a x).trans (le_foldl_max l _)
    · exact ih _ h

theorem shown_lt_width (fmt : K → Str) (m : Mat K) {r : Nat} (hr : r < m.size.1) (c : Nat) :
    (shown fmt m r c).length < width fmt m c :=
  mem_le_foldl_max _ _ _ (List.mem_map.2 ⟨r, List.mem_range.2 hr, rfl⟩)

theorem length_pad {w : Nat} {s : Str} (h : s.length < w) : (pad w s).length = w := by
  simp only [pad, List.length_append, List.length_replicate]
  omega

theorem length_fields (w : Nat → Nat) (s : Nat → Str) (l : List Nat) (h : ∀ c, (s c).length < w c) :
    (l.flatMap fun c => pad (w c) (s c)).length = (l.map w).sum := by
  induction l with
  | nil => rfl
  | cons c l ih => simp [ih, length_pad (h c)]

/-- **C133, aligned.** In every line the field of column `c` begins at the same position, the sum of the widths of the columns before it,
and begins with the text of the element. -/
theorem C133_aligned_partial (fmt : K → Str) (m : Mat K) (h : Wf m) (hs : m.size.1 * m.size.2 < 4294967296) :
    ∃ ls, print fmt m.size m.data = .ok ls ∧ ls.length = m.size.1 ∧
      ∀ r, r < m.size.1 → ∃ l, ls[r]? = some l ∧ l.length = ((List.range m.size.2).map (width fmt m)).sum ∧
        ∀ c, c < m.size.2 →
          shown fmt m r c ++ [' '] <+: l.drop ((List.range c).map (width fmt m)).sum := by
  refine ⟨_, C133_print_partial fmt m h hs, by simp,
    fun r hr => ⟨(List.range m.size.2).flatMap fun c => pad (width fmt m c) (shown fmt m r c), by simp [hr], ?_, fun c hc => ?_⟩⟩
  · exact length_fields _ _ _ (shown_lt_width fmt m hr)
  · obtain ⟨k, hk⟩ : ∃ k, m.size.2 = c + (k + 1) := ⟨m.size.2 - c - 1, by omega⟩
    rw [hk, List.range_add, List.flatMap_append, List.drop_append_of_le_length
      (le_of_eq (length_fields _ _ _ (shown_lt_width fmt m hr)).symm),
      List.drop_of_length_le (le_of_eq (length_fields _ _ _ (shown_lt_width fmt m hr))), List.nil_append, List.range_succ_eq_map,
      List.map_cons, List.flatMap_cons, Nat.add_zero]
    have := shown_lt_width fmt m hr c
    obtain ⟨j, hj⟩ : ∃ j, width fmt m c - (shown fmt m r c).length = j + 1 := ⟨_, (Nat.succ_pred (by omega)).symm⟩
    rw [pad, hj, List.replicate_succ]
    rw [show ∀ (a b c : Str) (x : Char), (a ++ x :: b) ++ c = (a ++ [x]) ++ (b ++ c) by intros; simp]
    exact List.prefix_append _ _

/-- The words of a line: what is between spaces -/
def words (s : Str) : List Str := (s.splitOn ' ').filter (· ≠ [])

theorem words_space (s : Str) : words (' ' :: s) = words s := by
  unfold words List.splitOn
  rw [List.splitOnP_cons_eq_if_modifyHead]
  simp

theorem words_spaces (k : Nat) (s : Str) : words (List.replicate k ' ' ++ s) = words s := by
  induction k with
  | zero => rfl
  | succ k ih => rw [List.replicate_succ, List.cons_append, words_space, ih]

theorem words_cons (e s : Str) (h : ' ' ∉ e) (h0 : e ≠ []) : words (e ++ ' ' :: s) = e :: words s := by
  unfold words List.splitOn
  rw [List.splitOnP_append_cons _ _ (by simp), List.splitOnP_eq_singleton]
  · simp [h0]
  · intro x hx
    have : x ≠ ' ' := fun hh => h (hh ▸ hx)
    simpa using this

theorem words_fields (w : Nat → Nat) (s : Nat → Str) (l : List Nat) (h : ∀ c, (s c).length < w c) (h1 : ∀ c, ' ' ∉ s c)
    (h2 : ∀ c, s c ≠ []) : words (l.flatMap fun c => pad (w c) (s c)) = l.map s := by
  induction l with
  | nil => rfl
  | cons c l ih =>
    obtain ⟨j, hj⟩ : ∃ j, w c - (s c).length = j + 1 := ⟨_, (Nat.succ_pred (by have := h c; omega)).symm⟩
    rw [List.flatMap_cons, pad, hj, List.replicate_succ, List.append_assoc, List.cons_append, words_cons _ _ (h1 c) (h2 c),
      words_spaces, ih, List.map_cons]

/-- **C133, read back.** If texts of elements are not empty and contain no spaces, a program that splits the lines at spaces gets back the
texts of all elements, row by row. -/
theorem C133_read_partial (fmt : K → Str) (m : Mat K) (h : Wf m) (hs : m.size.1 * m.size.2 < 4294967296)
    (h1 : ∀ v, ' ' ∉ fmt v) (h2 : ∀ v, fmt v ≠ []) :
    ∃ ls, print fmt m.size m.data = .ok ls ∧
      ls.map words = (List.range m.size.1).map fun r => (List.range m.size.2).map fun c => shown fmt m r c := by
  refine ⟨_, C133_print_partial fmt m h hs, ?_⟩
  rw [List.map_map]
  apply List.map_congr_left
  intro r hr
  apply words_fields
  · exact shown_lt_width fmt m (List.mem_range.1 hr)
  · intro c
    unfold shown
    split
    · exact h1 _
    · decide
  · intro c
    unfold shown
    split
    · exact h2 _
    · decide

/-- A Scilab matrix: its size, and its elements from (1, 1) on -/
structure SciMat (K : Type) where
  rows : Nat
  cols : Nat
  at_ : Nat → Nat → K

/-- A Scilab command: an element assigned outside the matrix makes it larger. -/
def SciMat.exec [Zero K] (a : SciMat K) : Cmd K → SciMat K
  | .zeros r c => ⟨r, c, fun _ _ => 0⟩
  | .assign r c v => ⟨max a.rows r, max a.cols c, fun i j => if i = r ∧ j = c then v else a.at_ i j⟩

theorem exec_assigns [Zero K] (elems : List (Index × K)) (hd : (elems.map Prod.fst).Nodup) : ∀ (a : SciMat K)
    (_ : ∀ e ∈ elems, e.1.1 < a.rows ∧ e.1.2 < a.cols) (_ : a.rows < 4294967296) (_ : a.cols < 4294967296),
    let b := (elems.map fun e => Cmd.assign (u32 (e.1.1 + 1)) (u32 (e.1.2 + 1)) e.2).foldl SciMat.exec a
    b.rows = a.rows ∧ b.cols = a.cols ∧
      ∀ r c, b.at_ (r + 1) (c + 1) = match Data.find elems (r, c) with | some v => v | none => a.at_ (r + 1) (c + 1) := by
  induction elems with
  | nil => exact fun a _ _ _ => ⟨rfl, rfl, fun r c => rfl⟩
  | cons e elems ih =>
    intro a hin hr hc
    rw [List.map_cons, List.nodup_cons] at hd
    have h := hin e (by simp)
    have e1 : u32 (e.1.1 + 1) = e.1.1 + 1 := Nat.mod_eq_of_lt (by omega)
    have e2 : u32 (e.1.2 + 1) = e.1.2 + 1 := Nat.mod_eq_of_lt (by omega)
    have m1 : max a.rows (e.1.1 + 1) = a.rows := by omega
    have m2 : max a.cols (e.1.2 + 1) = a.cols := by omega
    rw [List.map_cons, List.foldl_cons, e1, e2]
    obtain ⟨h1, h2, h3⟩ := ih hd.2 (a.exec (.assign (e.1.1 + 1) (e.1.2 + 1) e.2))
      (fun x hx => by simp only [SciMat.exec, m1, m2]; exact hin x (by simp [hx]))
      (by simp only [SciMat.exec, m1]; exact hr) (by simp only [SciMat.exec, m2]; exact hc)
    refine ⟨h1.trans m1, h2.trans m2, fun r c => ?_⟩
    rw [h3, Data.find_cons]
    by_cases h' : e.1 = (r, c)
    · have : Data.find elems (r, c) = none := by
        rw [Data.find_none_iff]
        intro x hx hx'
        exact hd.1 (List.mem_map.2 ⟨x, hx, by rw [hx', h']⟩)
      rw [this, if_pos h']
      simp [SciMat.exec, h']
    · rw [if_neg h']
      have : ¬(r = e.1.1 ∧ c = e.1.2) := fun hh => h' (Prod.ext hh.1.symm hh.2.symm)
      simp [SciMat.exec, this]

/-- **C133, Scilab.** The commands written by `printScilabMatrix`, executed in Scilab, give a matrix of the same size with the same
elements, whatever Scilab's variable held before. -/
theorem C133_scilab_partial [Zero K] (m : Mat K) (h : Wf m) (hr : m.size.1 < 4294967296) (hc : m.size.2 < 4294967296) (a : SciMat K) :
    let b := (scilab m.size m.data).foldl SciMat.exec a
    b.rows = m.size.1 ∧ b.cols = m.size.2 ∧ ∀ r c, b.at_ (r + 1) (c + 1) = m.data.get (r, c) := by
  obtain ⟨h1, h2, h3⟩ := exec_assigns m.data (Data.inc_nodup h.inc) ⟨m.size.1, m.size.2, fun _ _ => 0⟩ h.inside hr hc
  exact ⟨h1, h2, fun r c => h3 r c⟩

/-- Texts for examples -/
def digits (v : ℤ) : Str := v.repr.toList

example : print digits (2, 2) [((0, 0), -10), ((1, 0), 5), ((1, 1), 7)] = .ok ["-10 0 ".toList, "5   7 ".toList] := by
  decide +kernel

/-- **C133 is false of matrices with elements outside their size**, which `at` allows: an element with a column out of range is shown at
another place, one with a row out of range is written outside the table. It is false of matrices with 2^32 places, too: the table has
no places at all. -/
theorem C133_outside_false :
    print digits (2, 2) [((0, 2), 5)] = .ok ["0 0 ".toList, "5 0 ".toList] ∧
    print digits (2, 2) [((2, 0), 5)] = .error .ub ∧
    print digits (65536, 65536) [((0, 0), 5)] = .error .ub := by
  refine ⟨by decide +kernel, by decide +kernel, rfl⟩

/-- The matrices of the theorem are those built by `at` in their size -/
example : Mat.data (MOp.run (Mat.ofSize 2 2 : Mat ℤ) (.set (0, 2) 5)) = [((0, 2), 5)] := by decide +kernel

end Verif.Sparse
