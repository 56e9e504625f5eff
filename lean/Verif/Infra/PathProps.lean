import Verif.Infra.ParamsModel
import Verif.Loop
import Mathlib.Data.List.TakeWhile

/-
C52, C77: path text. C53, C72: parameter trees.
-/

namespace Verif.Infra

open Verif.Res

/-! ## C52 -/

theorem findDot_le (s : Text) : findDot s ≤ s.length := by
  induction s with
  | nil => simp [findDot]
  | cons c s ih =>
    simp only [findDot, List.length_cons]
    split <;> omega

theorem take_findDot (s : Text) : '.' ∉ s.take (findDot s) := by
  induction s with
  | nil => simp [findDot]
  | cons c s ih =>
    simp only [findDot]
    split
    · simp
    · rename_i hc
      rw [List.take_succ_cons, List.mem_cons]
      rintro (h | h)
      · exact hc h.symm
      · exact ih h

theorem findDot_append (x s : Text) (hx : '.' ∉ x) : findDot (x ++ '.' :: s) = x.length := by
  induction x with
  | nil => simp [findDot]
  | cons c x ih =>
    rw [List.mem_cons, not_or] at hx
    rw [List.cons_append, findDot, if_neg (fun h => hx.1 h.symm), ih hx.2, List.length_cons]

theorem findDot_all (x : Text) (hx : '.' ∉ x) : findDot x = x.length := by
  induction x with
  | nil => rfl
  | cons c x ih =>
    rw [List.mem_cons, not_or] at hx
    rw [findDot, if_neg (fun h => hx.1 h.symm), ih hx.2, List.length_cons]

/-- A text is one item, or an item, a dot and the rest. -/
theorem text_cases (s : Text) : '.' ∉ s ∨ ∃ x r, s = x ++ '.' :: r ∧ '.' ∉ x := by
  induction s with
  | nil => left; simp
  | cons c s ih =>
    by_cases hc : c = '.'
    · subst hc
      exact Or.inr ⟨[], s, rfl, by simp⟩
    · rcases ih with h | ⟨x, r, rfl, hx⟩
      · left
        rw [List.mem_cons]
        rintro (h' | h')
        · exact hc h'.symm
        · exact h h'
      · right
        refine ⟨c :: x, r, rfl, ?_⟩
        rw [List.mem_cons]
        rintro (h' | h')
        · exact hc h'.symm
        · exact hx h'

/-- Items separated by dots -/
def dots (items : List Text) : Text := ['.'].intercalate items

theorem dots_cons (x y : Text) (l : List Text) : dots (x :: y :: l) = x ++ '.' :: dots (y :: l) := by
  simp [dots, List.intercalate]

theorem dots_one (x : Text) : dots [x] = x := by simp [dots, List.intercalate]

/-- Every text is a sequence of items (possibly empty) separated by dots. -/
theorem exists_dots (s : Text) : ∃ items : List Text, items ≠ [] ∧ (∀ x ∈ items, '.' ∉ x) ∧
    s = dots items := by
  induction hn : s.length using Nat.strong_induction_on generalizing s with
  | _ n ih =>
    rcases text_cases s with h | ⟨x, r, rfl, hx⟩
    · exact ⟨[s], by simp, by simpa using h, (dots_one s).symm⟩
    · obtain ⟨items, h1, h2, rfl⟩ := ih r.length (by simp at hn; omega) r rfl
      obtain ⟨y, l, rfl⟩ := List.exists_cons_of_ne_nil h1
      refine ⟨x :: y :: l, by simp, ?_, (dots_cons _ _ _).symm⟩
      intro z hz
      rw [List.mem_cons] at hz
      rcases hz with rfl | hz
      · exact hx
      · exact h2 z hz

theorem parseFrom_dots (items : List Text) (hne : items ≠ []) (hd : ∀ x ∈ items, '.' ∉ x)
    (fuel : Nat) (hf : (dots items).length ≤ fuel) :
    parseFrom fuel (dots items) = items.takeWhile (fun x => x ≠ []) := by
  induction items generalizing fuel with
  | nil => exact absurd rfl hne
  | cons x l ih =>
    have hx := hd x (by simp)
    cases l with
    | nil =>
      rw [dots_one] at hf ⊢
      cases x with
      | nil => cases fuel <;> simp [parseFrom]
      | cons c x =>
        obtain ⟨f, rfl⟩ : ∃ f, fuel = f + 1 := ⟨fuel - 1, by simp at hf; omega⟩
        rw [parseFrom, if_neg (by simp), findDot_all _ hx]
        simp only
        rw [if_neg (by simp), List.take_length, List.drop_of_length_le (by omega)]
        have : parseFrom f [] = [] := by cases f <;> simp [parseFrom]
        rw [this]
        simp
    | cons y l =>
      rw [dots_cons] at hf ⊢
      obtain ⟨f, rfl⟩ : ∃ f, fuel = f + 1 := ⟨fuel - 1, by simp at hf; omega⟩
      rw [parseFrom, if_neg (by simp), findDot_append _ _ hx]
      simp only
      cases x with
      | nil => simp
      | cons c x =>
        rw [if_neg (by simp), List.take_left, List.takeWhile_cons_of_pos (by simp)]
        congr 1
        have : ((c :: x) ++ '.' :: dots (y :: l)).drop ((c :: x).length + 1) = dots (y :: l) := by
          rw [← List.drop_drop, List.drop_left]
          rfl
        rw [this]
        apply ih (by simp) (fun z hz => hd z (by simp [hz]))
        simp at hf
        omega

theorem formatFrom_eq (i : Nat) (p : Path) :
    formatFrom (i + 1) p = (p.map (fun x => '.' :: x)).flatten := by
  induction p generalizing i with
  | nil => rfl
  | cons x p ih => simp [formatFrom, ih]

theorem formatPath_eq (p : Path) : formatPath p = dots p := by
  cases p with
  | nil => rfl
  | cons x l =>
    induction l generalizing x with
    | nil => simp [formatPath, formatFrom, dots_one]
    | cons y l ih =>
      rw [dots_cons, ← ih]
      simp [formatPath, formatFrom, formatFrom_eq]

/-- Which items `parsePath` finds in any text: the items between dots up to the first empty one -/
theorem C52_parse (items : List Text) (hne : items ≠ []) (hd : ∀ x ∈ items, '.' ∉ x) :
    parsePath (dots items) = items.takeWhile (fun x => x ≠ []) :=
  parseFrom_dots items hne hd _ (le_refl _)

/-- Parsing a formatted path gives the path back. -/
theorem C52_round_trip (p : Path) (h : ∀ x ∈ p, x ≠ [] ∧ '.' ∉ x) :
    parsePath (formatPath p) = p := by
  rw [formatPath_eq]
  cases p with
  | nil => rfl
  | cons x l =>
    rw [C52_parse _ (by simp) (fun y hy => (h y hy).2), List.takeWhile_eq_self_iff]
    intro y hy
    simpa using (h y hy).1

example : parsePath (formatPath ["solver".toList, "tol".toList]) = ["solver".toList, "tol".toList] :=
  C52_round_trip _ (by decide)

/-- No item found is empty or contains a dot. -/
theorem C52_items (s : Text) : ∀ x ∈ parsePath s, x ≠ [] ∧ '.' ∉ x := by
  obtain ⟨items, hne, hd, rfl⟩ := exists_dots s
  rw [C52_parse items hne hd]
  intro x hx
  have h1 := List.mem_takeWhile_imp hx
  exact ⟨by simpa using h1, hd x (List.takeWhile_subset _ hx)⟩

/-! ## C53: specification -/

/-- `h` is a heap of parameter trees: following path `p` from cell `c` leads to cell `c'`. -/
inductive Leads (h : Heap) : Nat → Path → Nat → Prop
  | nil {c} : Leads h c [] c
  | cons {c cell x v c' p c''} : h[c]? = some cell → cell.find x = some v → v.nested = some c' →
      Leads h c' p c'' → Leads h c (x :: p) c''

/-- The value at a path -/
inductive At (h : Heap) (c : Nat) : Path → Val → Prop
  | intro {p x c' cell v} : Leads h c p c' → h[c']? = some cell → cell.find x = some v →
      At h c (p ++ [x]) v

/-- Nested pointers point to cells. -/
def Heap.wf (h : Heap) : Prop :=
  ∀ cell ∈ h, ∀ e ∈ cell, ∀ c, e.2.nested = some c → c < h.length

/-- Keys of each set are distinct. -/
def Heap.keys (h : Heap) : Prop := ∀ cell ∈ h, (cell.map Prod.fst).Nodup

/-- What is reached from `root` is reached by one path: nothing is shared. -/
def Tree (h : Heap) (root : Nat) : Prop := ∀ p q c, Leads h root p c → Leads h root q c → p = q

theorem find_mem {cell : Cell} {x : Text} {v : Val} (h : cell.find x = some v) : (x, v) ∈ cell := by
  simp only [Cell.find, Option.map_eq_some_iff] at h
  obtain ⟨e, h1, rfl⟩ := h
  have := List.find?_some h1
  simp only [decide_eq_true_eq] at this
  subst this
  exact List.mem_of_find?_eq_some h1

theorem Leads.lt {h : Heap} (hw : h.wf) {c c' : Nat} {p : Path} (hc : c < h.length)
    (hl : Leads h c p c') : c' < h.length := by
  induction hl with
  | nil => exact hc
  | cons h1 h2 h3 _ ih => exact ih (hw _ (List.mem_of_getElem? h1) _ (find_mem h2) _ h3)

theorem Leads.fun {h : Heap} {c c1 c2 : Nat} {p : Path} (h1 : Leads h c p c1) (h2 : Leads h c p c2) :
    c1 = c2 := by
  induction h1 with
  | nil => cases h2; rfl
  | cons a1 a2 a3 _ ih =>
    cases h2 with
    | cons b1 b2 b3 b4 =>
      rw [a1] at b1
      cases b1
      rw [a2] at b2
      cases b2
      rw [a3] at b3
      cases b3
      exact ih b4

theorem paramsFrom_ok {h : Heap} (hw : h.wf) (full : Path) {c c' : Nat} {p : Path}
    (hc : c < h.length) : paramsFrom h full c p = .ok c' ↔ Leads h c p c' := by
  induction p generalizing c with
  | nil =>
    simp only [paramsFrom, Except.ok.injEq]
    constructor
    · rintro rfl; exact .nil
    · intro h; cases h; rfl
  | cons x p ih =>
    simp only [paramsFrom]
    obtain ⟨cell, hcell⟩ : ∃ cell, h[c]? = some cell := ⟨_, List.getElem?_eq_getElem hc⟩
    have hraw : raw h c = .ok cell := by simp [raw, hcell]
    rw [hraw]
    simp only [bind_ok]
    cases hf : cell.find x with
    | none =>
      simp only
      constructor
      · intro h; cases h
      · intro h
        cases h with
        | cons b1 b2 b3 b4 =>
          rw [hcell] at b1
          cases b1
          rw [hf] at b2
          cases b2
    | some v =>
      simp only
      cases hv : v.nested with
      | none =>
        simp only
        constructor
        · intro h; cases h
        · intro h
          cases h with
          | cons b1 b2 b3 b4 =>
            rw [hcell] at b1
            cases b1
            rw [hf] at b2
            cases b2
            rw [hv] at b3
            cases b3
      | some c1 =>
        simp only
        have hc1 := hw _ (List.mem_of_getElem? hcell) _ (find_mem hf) _ hv
        rw [ih hc1]
        constructor
        · intro h; exact .cons hcell hf hv h
        · intro h
          cases h with
          | cons b1 b2 b3 b4 =>
            rw [hcell] at b1
            cases b1
            rw [hf] at b2
            cases b2
            rw [hv] at b3
            cases b3
            exact b4

/-- A lookup never fails other than by an exception with a text. -/
theorem paramsFrom_exc {h : Heap} (hw : h.wf) (full : Path) {c : Nat} {p : Path}
    (hc : c < h.length) : ∀ f, paramsFrom h full c p = .error f → ∃ msg, f = .exc msg := by
  induction p generalizing c with
  | nil => intro f h; cases h
  | cons x p ih =>
    intro f
    simp only [paramsFrom]
    obtain ⟨cell, hcell⟩ : ∃ cell, h[c]? = some cell := ⟨_, List.getElem?_eq_getElem hc⟩
    have hraw : raw h c = .ok cell := by simp [raw, hcell]
    rw [hraw]
    simp only [bind_ok]
    cases hf : cell.find x with
    | none => simp only; intro h; cases h; exact ⟨_, rfl⟩
    | some v =>
      simp only
      cases hv : v.nested with
      | none => simp only; intro h; cases h; exact ⟨_, rfl⟩
      | some c1 =>
        exact ih (hw _ (List.mem_of_getElem? hcell) _ (find_mem hf) _ hv) f

theorem valueRef_ok {h : Heap} (hw : h.wf) {root : Nat} (hr : root < h.length) {p : Path}
    {r : Nat × Text} : valueRef h root p = .ok r ↔
      ∃ q v cell, p = q ++ [r.2] ∧ Leads h root q r.1 ∧ h[r.1]? = some cell ∧
        cell.find r.2 = some v := by
  simp only [valueRef, decompose]
  cases hl : p.getLast? with
  | none =>
    simp only [bind_error]
    rw [List.getLast?_eq_none_iff] at hl
    subst hl
    constructor
    · intro h; cases h
    · rintro ⟨q, v, cell, h, -⟩
      simp at h
  | some x =>
    have hp : p = p.dropLast ++ [x] := by
      have hne : p ≠ [] := by rintro rfl; simp at hl
      rw [List.getLast?_eq_some_getLast hne] at hl
      rw [← Option.some.inj hl, List.dropLast_append_getLast]
    simp only [bind_ok]
    cases hq : params h root p.dropLast with
    | error f =>
      simp only [bind_error]
      constructor
      · intro h; cases h
      · rintro ⟨q, v, cell, h1, h2, -⟩
        rw [h1, List.dropLast_concat, params, (paramsFrom_ok hw _ hr).mpr h2] at hq
        cases hq
    | ok c =>
      simp only [bind_ok]
      have hlead := (paramsFrom_ok hw _ hr).mp hq
      obtain ⟨cell, hcell⟩ : ∃ cell, h[c]? = some cell :=
        ⟨_, List.getElem?_eq_getElem (hlead.lt hw hr)⟩
      have hraw : raw h c = .ok cell := by simp [raw, hcell]
      rw [hraw]
      simp only [bind_ok]
      cases hf : cell.find x with
      | none =>
        simp only
        constructor
        · intro h; cases h
        · rintro ⟨q, v, cell', h1, h2, h3, h4⟩
          rw [h1] at hp hlead
          rw [List.dropLast_concat] at hp hlead
          obtain ⟨-, h5⟩ := List.append_inj_right' hp rfl |> fun h => (⟨trivial, h⟩ : True ∧ _)
          rw [List.singleton_inj] at h5
          have := hlead.fun h2
          subst this
          rw [hcell] at h3
          cases h3
          rw [h5, hf] at h4
          cases h4
      | some v =>
        simp only [Except.ok.injEq]
        constructor
        · rintro rfl
          exact ⟨_, v, cell, hp, hlead, hcell, hf⟩
        · rintro ⟨q, v', cell', h1, h2, h3, h4⟩
          rw [h1] at hp hlead
          rw [List.dropLast_concat] at hp hlead
          have h5 := List.append_inj_right' hp rfl
          rw [List.singleton_inj] at h5
          have := hlead.fun h2
          subst this
          rw [← h5]

/-- `value(root, path)` gives the value at the path if there is one; otherwise it throws (never
undefined). Reading through the reference gives that value. -/
theorem C53_find {h : Heap} (hw : h.wf) {root : Nat} (hr : root < h.length) (p : Path) :
    (∀ r, valueRef h root p = .ok r → ∃ v, At h root p v ∧ readRef h r = .ok v) ∧
    (∀ v, At h root p v → ∃ r, valueRef h root p = .ok r ∧ readRef h r = .ok v) ∧
    (∀ f, valueRef h root p = .error f → (∃ msg, f = .exc msg) ∧ ∀ v, ¬ At h root p v) := by
  have h2 : ∀ v, At h root p v → ∃ r, valueRef h root p = .ok r ∧ readRef h r = .ok v := by
    intro v ha
    obtain ⟨hl, hc, hf⟩ := ha
    refine ⟨(_, _), (valueRef_ok hw hr).mpr ⟨_, v, _, rfl, hl, hc, hf⟩, ?_⟩
    simp [readRef, raw, hc, hf]
  refine ⟨fun r h => ?_, h2, fun f he => ⟨?_, fun v hv => ?_⟩⟩
  · obtain ⟨q, v, cell, rfl, h2, h3, h4⟩ := (valueRef_ok hw hr).mp h
    exact ⟨v, .intro h2 h3 h4, by simp [readRef, raw, h3, h4]⟩
  · simp only [valueRef, decompose] at he
    cases hl : p.getLast? with
    | none => rw [hl] at he; cases he; exact ⟨_, rfl⟩
    | some x =>
      rw [hl] at he
      simp only [bind_ok] at he
      cases hq : params h root p.dropLast with
      | error f' =>
        rw [hq] at he
        cases he
        exact paramsFrom_exc hw _ hr _ hq
      | ok c =>
        rw [hq] at he
        simp only [bind_ok] at he
        have hlead := (paramsFrom_ok hw _ hr).mp hq
        obtain ⟨cell, hcell⟩ : ∃ cell, h[c]? = some cell :=
          ⟨_, List.getElem?_eq_getElem (hlead.lt hw hr)⟩
        have hraw : raw h c = .ok cell := by simp [raw, hcell]
        rw [hraw] at he
        simp only [bind_ok] at he
        split at he
        · cases he; exact ⟨_, rfl⟩
        · cases he
  · obtain ⟨r, h3, -⟩ := h2 v hv
    rw [he] at h3
    cases h3

/-- A reference obtained from `value` may be read only while the entry is there: reading a reference
to an entry that is not there is undefined, not an exception. -/
theorem C53_dangling (h : Heap) (r : Nat × Text) :
    ((∃ v cell, h[r.1]? = some cell ∧ (r.2, v) ∈ cell) ↔ ∃ v, readRef h r = .ok v) ∧
    (∀ f, readRef h r = .error f → f = .ub) := by
  unfold readRef
  cases hc : h[r.1]? with
  | none => simp [raw, hc, Res.bind_error]
  | some cell =>
    simp only [raw, hc, bind_ok]
    cases hf : cell.find r.2 with
    | none =>
      have hn : ∀ v, (r.2, v) ∉ cell := by
        intro v hv
        simp only [Cell.find, Option.map_eq_none_iff, List.find?_eq_none] at hf
        exact hf _ hv (by simp)
      simp [hn]
    | some v => simpa using ⟨v, find_mem hf⟩

/-- Loading a parameter: if the set has no entry of the name, the result is false and the destination
keeps its value; otherwise the destination receives the converted value, or the conversion throws
and nothing is stored. -/
theorem C53_load {T : Type} (conv : Val → Res T) (cell : Cell) (name : Text) (dst : T) :
    ((∀ v, (name, v) ∉ cell) → maybeLoad conv cell name dst = .ok (false, dst)) ∧
    (∀ v, (name, v) ∈ cell → (cell.map Prod.fst).Nodup →
      (∀ x, conv v = .ok x → maybeLoad conv cell name dst = .ok (true, x)) ∧
      (∀ f, conv v = .error f → maybeLoad conv cell name dst = .error f)) := by
  constructor
  · intro hn
    have : cell.find name = none := by
      simp only [Cell.find, Option.map_eq_none_iff, List.find?_eq_none]
      rintro ⟨a, v⟩ hm
      simp only [decide_eq_true_eq]
      rintro rfl
      exact hn v hm
    simp [maybeLoad, this]
  · intro v hv hd
    have : cell.find name = some v := by
      induction cell with
      | nil => cases hv
      | cons e cell ih =>
        simp only [List.map_cons, List.nodup_cons] at hd
        simp only [Cell.find, List.find?_cons]
        by_cases he : e.1 = name
        · simp only [he, decide_true, Option.map_some, Option.some.injEq]
          rcases List.mem_cons.mp hv with h | h
          · rw [← h]
          · exact absurd (List.mem_map.mpr ⟨_, h, rfl⟩) (he ▸ hd.1)
        · simp only [he, decide_false]
          rcases List.mem_cons.mp hv with h | h
          · exact absurd (by rw [← h]) he
          · exact ih h hd.2
    constructor
    · intro x hx
      simp [maybeLoad, this, hx]
    · intro f hf
      simp [maybeLoad, this, hf, Res.bind_error]

example : maybeLoad (fun v => toInt v.text) [("n".toList, ⟨"12".toList, none⟩)] "n".toList 3 = .ok (true, 12) ∧
    maybeLoad (fun v => toInt v.text) [("n".toList, ⟨"12".toList, none⟩)] "m".toList 3 = .ok (false, 3) := by
  decide +kernel

/-! ## C53: update -/

theorem find_map (cell : Cell) (name : Text) (v : Val) (x : Text) :
    Cell.find (cell.map (fun e => if e.1 = name then (e.1, v) else e)) x =
      if x = name then (cell.find x).map (fun _ => v) else cell.find x := by
  induction cell with
  | nil => simp [Cell.find]
  | cons e cell ih =>
    simp only [Cell.find] at ih ⊢
    rw [List.map_cons, List.find?_cons, List.find?_cons]
    by_cases hx : e.1 = x
    · by_cases hn : e.1 = name
      · rw [if_pos hn]
        simp only [hx, decide_true, Option.map_some]
        rw [if_pos (by rw [← hx, hn])]
      · rw [if_neg hn]
        simp only [hx, decide_true, Option.map_some]
        rw [if_neg (by rw [← hx]; exact hn)]
    · have : (if e.1 = name then (e.1, v) else e).1 = e.1 := by split <;> rfl
      simp only [this, hx, decide_false]
      exact ih

theorem assign_get (h : Heap) (r : Nat × Text) (v : Val) (c : Nat) :
    (assignRef h r v)[c]? = if c = r.1 then
      (h[c]?).map (fun cell => cell.map (fun e => if e.1 = r.2 then (e.1, v) else e)) else h[c]? := by
  rw [assignRef, List.getElem?_modify]
  by_cases hc : c = r.1
  · subst hc; simp
  · rw [if_neg hc]
    have hc' : ¬ r.1 = c := fun h => hc h.symm
    simp [hc']

/-- Entry `x` of cell `c` after an assignment to another entry -/
theorem assign_entry (h : Heap) (r : Nat × Text) (v : Val) (c : Nat) (x : Text) (w : Val)
    (hne : ¬ (c = r.1 ∧ x = r.2)) :
    (∃ cell, (assignRef h r v)[c]? = some cell ∧ cell.find x = some w) ↔
      ∃ cell, h[c]? = some cell ∧ cell.find x = some w := by
  rw [assign_get]
  by_cases hc : c = r.1
  · rw [if_pos hc]
    have hx : x ≠ r.2 := fun hx => hne ⟨hc, hx⟩
    constructor
    · rintro ⟨cell, h1, h2⟩
      rw [Option.map_eq_some_iff] at h1
      obtain ⟨cell0, h3, rfl⟩ := h1
      rw [find_map, if_neg hx] at h2
      exact ⟨cell0, h3, h2⟩
    · rintro ⟨cell, h1, h2⟩
      refine ⟨_, by rw [h1]; rfl, ?_⟩
      rw [find_map, if_neg hx]
      exact h2
  · rw [if_neg hc]

theorem leads_cons_iff {h : Heap} {c : Nat} {x : Text} {p : Path} {d : Nat} :
    Leads h c (x :: p) d ↔ ∃ w c', (∃ cell, h[c]? = some cell ∧ cell.find x = some w) ∧
      w.nested = some c' ∧ Leads h c' p d := by
  constructor
  · intro hl
    cases hl with
    | cons h1 h2 h3 h4 => exact ⟨_, _, ⟨_, h1, h2⟩, h3, h4⟩
  · rintro ⟨w, c', ⟨cell, h1, h2⟩, h3, h4⟩
    exact .cons h1 h2 h3 h4

theorem at_cons_iff {h : Heap} {c : Nat} {x : Text} {p : Path} {w : Val} :
    At h c (x :: p) w ↔ (p = [] ∧ ∃ cell, h[c]? = some cell ∧ cell.find x = some w) ∨
      ∃ v c', (∃ cell, h[c]? = some cell ∧ cell.find x = some v) ∧ v.nested = some c' ∧ At h c' p w := by
  constructor
  · intro ha
    generalize hq : x :: p = q at ha
    obtain ⟨hl, hc, hf⟩ := ha
    rename_i q x' c' cell
    cases hl with
    | nil =>
      simp only [List.nil_append, List.cons.injEq] at hq
      obtain ⟨rfl, rfl⟩ := hq
      exact Or.inl ⟨rfl, _, hc, hf⟩
    | cons h1 h2 h3 h4 =>
      simp only [List.cons_append, List.cons.injEq] at hq
      obtain ⟨rfl, rfl⟩ := hq
      exact Or.inr ⟨_, _, ⟨_, h1, h2⟩, h3, .intro h4 hc hf⟩
  · rintro (⟨rfl, cell, h1, h2⟩ | ⟨v, c', ⟨cell, h1, h2⟩, h3, h4⟩)
    · exact .intro (p := []) .nil h1 h2
    · obtain ⟨hl, hc, hf⟩ := h4
      exact .intro (p := x :: _) (.cons h1 h2 h3 hl) hc hf

theorem not_at_nil {h : Heap} {c : Nat} {w : Val} : ¬ At h c [] w := by
  intro ha
  generalize hq : ([] : Path) = q at ha
  obtain ⟨_, _, _⟩ := ha
  simp at hq

/-- Walks that do not pass the assigned entry -/
theorem at_assign {h : Heap} {r : Nat × Text} {v : Val} (q : Path) (c : Nat) (w : Val)
    (hno : ∀ q1 x q2, q = q1 ++ x :: q2 → Leads h c q1 r.1 → x ≠ r.2) :
    At (assignRef h r v) c q w ↔ At h c q w := by
  induction q generalizing c with
  | nil => exact ⟨fun h => absurd h not_at_nil, fun h => absurd h not_at_nil⟩
  | cons x q ih =>
    have hne : ¬ (c = r.1 ∧ x = r.2) := by
      rintro ⟨rfl, h⟩
      exact hno [] x q rfl .nil h
    rw [at_cons_iff, at_cons_iff]
    apply or_congr
    · rw [assign_entry _ _ _ _ _ _ hne]
    · constructor
      · rintro ⟨v', c', h1, h2, h3⟩
        rw [assign_entry _ _ _ _ _ _ hne] at h1
        refine ⟨v', c', h1, h2, (ih c' ?_).mp h3⟩
        intro q1 y q2 hq hl
        exact hno (x :: q1) y q2 (by rw [hq]; rfl) (leads_cons_iff.mpr ⟨v', c', h1, h2, hl⟩)
      · rintro ⟨v', c', h1, h2, h3⟩
        refine ⟨v', c', (assign_entry _ _ _ _ _ _ hne).mpr h1, h2, (ih c' ?_).mpr h3⟩
        intro q1 y q2 hq hl
        exact hno (x :: q1) y q2 (by rw [hq]; rfl) (leads_cons_iff.mpr ⟨v', c', h1, h2, hl⟩)

theorem leads_assign {h : Heap} {r : Nat × Text} {v : Val} (q : Path) (c d : Nat)
    (hno : ∀ q1 x q2, q = q1 ++ x :: q2 → Leads h c q1 r.1 → x ≠ r.2) :
    Leads (assignRef h r v) c q d ↔ Leads h c q d := by
  induction q generalizing c with
  | nil =>
    constructor <;>
    · intro h; cases h; exact .nil
  | cons x q ih =>
    have hne : ¬ (c = r.1 ∧ x = r.2) := by
      rintro ⟨rfl, h⟩
      exact hno [] x q rfl .nil h
    rw [leads_cons_iff, leads_cons_iff]
    constructor
    · rintro ⟨v', c', h1, h2, h3⟩
      rw [assign_entry _ _ _ _ _ _ hne] at h1
      refine ⟨v', c', h1, h2, (ih c' ?_).mp h3⟩
      intro q1 y q2 hq hl
      exact hno (x :: q1) y q2 (by rw [hq]; rfl) (leads_cons_iff.mpr ⟨v', c', h1, h2, hl⟩)
    · rintro ⟨v', c', h1, h2, h3⟩
      refine ⟨v', c', (assign_entry _ _ _ _ _ _ hne).mpr h1, h2, (ih c' ?_).mpr h3⟩
      intro q1 y q2 hq hl
      exact hno (x :: q1) y q2 (by rw [hq]; rfl) (leads_cons_iff.mpr ⟨v', c', h1, h2, hl⟩)

theorem leads_append {h : Heap} {c d e : Nat} {p q : Path} (h1 : Leads h c p d) (h2 : Leads h d q e) :
    Leads h c (p ++ q) e := by
  induction h1 with
  | nil => exact h2
  | cons a1 a2 a3 _ ih => exact .cons a1 a2 a3 (ih h2)

theorem at_append {h : Heap} {c d : Nat} {p q : Path} {w : Val} (hl : Leads h c p d)
    (hq : q ≠ []) : At h c (p ++ q) w ↔ At h d q w := by
  induction hl with
  | nil => rfl
  | @cons c cell x v c' p d a1 a2 a3 _ ih =>
    rw [List.cons_append, at_cons_iff]
    constructor
    · rintro (⟨h, -⟩ | ⟨v', c'', ⟨cell', h1, h2⟩, h3, h4⟩)
      · simp at h; exact absurd h.2 hq
      · rw [a1] at h1
        cases h1
        rw [a2] at h2
        cases h2
        rw [a3] at h3
        cases h3
        exact ih.mp h4
    · intro h
      exact Or.inr ⟨v, c', ⟨cell, a1, a2⟩, a3, ih.mpr h⟩

/-- Assigning through the reference to the value at path `p` of a tree: the value at `p` is the new
one; values at paths that do not go through `p` are unchanged (both ways: none appear or disappear);
values below `p` are those nested to the new value. -/
theorem C53_assign {h : Heap} (hw : h.wf) {root : Nat} (hr : root < h.length) (ht : Tree h root)
    {p : Path} {r : Nat × Text} (href : valueRef h root p = .ok r) (v : Val) :
    At (assignRef h r v) root p v ∧
    (∀ q w, ¬ p <+: q → (At (assignRef h r v) root q w ↔ At h root q w)) ∧
    (v.nested = none → ∀ q w, q ≠ [] → ¬ At (assignRef h r v) root (p ++ q) w) ∧
    (∀ c, v.nested = some c → (∀ s, ¬ Leads h c s r.1) →
      ∀ q w, q ≠ [] → (At (assignRef h r v) root (p ++ q) w ↔ At h c q w)) := by
  obtain ⟨pp, v0, cell, rfl, hl, hc, hf⟩ := (valueRef_ok hw hr).mp href
  have hl' : Leads (assignRef h r v) root pp r.1 := by
    rw [leads_assign]
    · exact hl
    · intro q1 x q2 hq hl1 _
      have := ht _ _ _ hl1 hl
      rw [this] at hq
      have := congrArg List.length hq
      simp at this
  have hent : ∃ cell, (assignRef h r v)[r.1]? = some cell ∧ cell.find r.2 = some v := by
    rw [assign_get, if_pos rfl, hc]
    refine ⟨_, rfl, ?_⟩
    rw [find_map, if_pos rfl, hf]
    rfl
  obtain ⟨cell', hc', hf'⟩ := hent
  refine ⟨.intro hl' hc' hf', ?_, ?_, ?_⟩
  · intro q w hq
    apply at_assign
    intro q1 x q2 hqq hl1 hx
    have := ht _ _ _ hl1 hl
    apply hq
    rw [hqq, this, hx]
    exact ⟨q2, by simp⟩
  · intro hn q w hq hat
    rw [List.append_assoc, at_append hl' (by simp), List.singleton_append, at_cons_iff] at hat
    rcases hat with ⟨h, -⟩ | ⟨v', c', ⟨cell2, h1, h2⟩, h3, h4⟩
    · exact hq h
    · rw [hc'] at h1
      cases h1
      rw [hf'] at h2
      cases h2
      rw [hn] at h3
      cases h3
  · intro c hn hno q w hq
    rw [List.append_assoc, at_append hl' (by simp), List.singleton_append, at_cons_iff]
    rw [← at_assign (r := r) (v := v) q c w (fun q1 x q2 _ hl1 => absurd hl1 (hno q1))]
    constructor
    · rintro (⟨h, -⟩ | ⟨v', c', ⟨cell2, h1, h2⟩, h3, h4⟩)
      · exact absurd h hq
      · rw [hc'] at h1
        cases h1
        rw [hf'] at h2
        cases h2
        rw [hn] at h3
        cases h3
        exact h4
    · intro h
      exact Or.inr ⟨v, c, ⟨cell', hc', hf'⟩, hn, h⟩

/-- A solver with tolerance 1 and a nested controller with two values -/
def sample : Heap :=
  [[("ctl".toList, ⟨"simple".toList, some 1⟩), ("tol".toList, ⟨"1".toList, none⟩)],
   [("hmax".toList, ⟨"5".toList, none⟩), ("hmin".toList, ⟨"2".toList, none⟩)]]

theorem sample_wf : sample.wf := by
  intro cell hcell e he c hn
  simp only [sample, List.mem_cons, List.not_mem_nil, or_false] at hcell
  rcases hcell with rfl | rfl <;> simp only [List.mem_cons, List.not_mem_nil, or_false] at he <;>
    rcases he with rfl | rfl <;> cases hn
  decide

theorem sample_leads {p : Path} {c : Nat} (h : Leads sample 0 p c) :
    (p = [] ∧ c = 0) ∨ (p = ["ctl".toList] ∧ c = 1) := by
  cases h with
  | nil => exact Or.inl ⟨rfl, rfl⟩
  | cons h1 h2 h3 h4 =>
    rename_i cell x v c' p
    cases h1
    have hm := find_mem h2
    simp only [List.mem_cons, Prod.mk.injEq, List.not_mem_nil, or_false] at hm
    rcases hm with ⟨rfl, rfl⟩ | ⟨rfl, rfl⟩
    · cases h3
      cases h4 with
      | nil => exact Or.inr ⟨rfl, rfl⟩
      | cons h1 h2 h3 h4 =>
        cases h1
        have hm := find_mem h2
        simp only [List.mem_cons, Prod.mk.injEq, List.not_mem_nil, or_false] at hm
        rcases hm with ⟨rfl, rfl⟩ | ⟨rfl, rfl⟩ <;> cases h3
    · cases h3

theorem sample_tree : Tree sample 0 := by
  intro p q c hp hq
  rcases sample_leads hp with ⟨rfl, rfl⟩ | ⟨rfl, rfl⟩ <;>
  rcases sample_leads hq with ⟨rfl, h⟩ | ⟨rfl, h⟩ <;> first | rfl | omega

/-- The hypotheses of `C53_assign` for the value `ctl.hmax` -/
example : sample.wf ∧ Tree sample 0 ∧
    valueRef sample 0 ["ctl".toList, "hmax".toList] = .ok (1, "hmax".toList) :=
  ⟨sample_wf, sample_tree, rfl⟩

/-! ## C72: copies of parameter sets -/

/-- False: a value nested in a copy of a set is the value in the original. -/
theorem C72_copy_false : ∃ (h h1 : Heap) (copy : Nat) (r : Nat × Text) (p : Path) (v w : Val),
    h.wf ∧ Tree h 0 ∧ copyCell h 0 = .ok (h1, copy) ∧ valueRef h1 copy p = .ok r ∧
    At h1 0 p w ∧ v ≠ w ∧ At (assignRef h1 r v) 0 p v := by
  refine ⟨sample, sample ++ [sample.head (by decide)], 2, (1, "hmax".toList),
    ["ctl".toList, "hmax".toList], ⟨"7".toList, none⟩, ⟨"5".toList, none⟩, sample_wf, sample_tree,
    rfl, rfl, ?_, by decide, ?_⟩
  · exact .intro (p := ["ctl".toList]) (.cons rfl rfl rfl .nil) rfl rfl
  · exact .intro (p := ["ctl".toList]) (.cons rfl rfl rfl .nil) rfl rfl

/-- What holds: assigning a value of the copied set itself leaves the original unchanged. What is
missing: values of nested sets, which the copy shares with the original. -/
theorem C72_partial {h h1 : Heap} (hw : h.wf) {root copy : Nat} (hr : root < h.length)
    (hc : copyCell h root = .ok (h1, copy)) {x : Text} {r : Nat × Text}
    (href : valueRef h1 copy [x] = .ok r) (v : Val) (q : Path) (w : Val) :
    (At h1 root q w ↔ At h root q w) ∧ (At (assignRef h1 r v) root q w ↔ At h root q w) := by
  obtain ⟨cell, hcell⟩ : ∃ cell, h[root]? = some cell := ⟨_, List.getElem?_eq_getElem hr⟩
  have hraw : raw h root = .ok cell := by simp [raw, hcell]
  simp only [copyCell, hraw, bind_ok, Except.ok.injEq, Prod.mk.injEq] at hc
  obtain ⟨rfl, rfl⟩ := hc
  have hget : ∀ c, c < h.length → (h ++ [cell])[c]? = h[c]? := fun c hc => by
    rw [List.getElem?_append_left hc]
  have hat : ∀ q c, c < h.length → (At (h ++ [cell]) c q w ↔ At h c q w) := by
    intro q
    induction q with
    | nil => intro c _; exact ⟨fun h => absurd h not_at_nil, fun h => absurd h not_at_nil⟩
    | cons y q ih =>
      intro c hc
      rw [at_cons_iff, at_cons_iff, hget c hc]
      apply or_congr (Iff.rfl)
      constructor
      · rintro ⟨v', c', ⟨cell', h1, h2⟩, h3, h4⟩
        have := hw _ (List.mem_of_getElem? h1) _ (find_mem h2) _ h3
        exact ⟨v', c', ⟨cell', h1, h2⟩, h3, (ih c' this).mp h4⟩
      · rintro ⟨v', c', ⟨cell', h1, h2⟩, h3, h4⟩
        have := hw _ (List.mem_of_getElem? h1) _ (find_mem h2) _ h3
        exact ⟨v', c', ⟨cell', h1, h2⟩, h3, (ih c' this).mpr h4⟩
  refine ⟨hat q root hr, ?_⟩
  rw [← hat q root hr]
  have hwf : (h ++ [cell]).wf := by
    intro cl hcl e he c hn
    rw [List.mem_append, List.mem_singleton] at hcl
    rw [List.length_append, List.length_singleton]
    rcases hcl with hcl | rfl
    · exact Nat.lt_succ_of_lt (hw cl hcl e he c hn)
    · exact Nat.lt_succ_of_lt (hw cl (List.mem_of_getElem? hcell) e he c hn)
  obtain ⟨pp, v0, cl, h1, h2, h3, h4⟩ := (valueRef_ok hwf (by simp)).mp href
  have hpp : pp = [] := by
    cases pp with
    | nil => rfl
    | cons a l => simp at h1
  subst hpp
  have hr1 : h.length = r.1 := by
    generalize hz : r.1 = z at h2
    cases h2
    rfl
  have hno : ∀ s c, c < h.length → ¬ Leads (h ++ [cell]) c s r.1 := by
    intro s c hc hl
    induction s generalizing c with
    | nil => cases hl; omega
    | cons y s ih =>
      obtain ⟨w', c', ⟨cl', g1, g2⟩, g3, g4⟩ := leads_cons_iff.mp hl
      rw [hget c hc] at g1
      exact ih c' (hw _ (List.mem_of_getElem? g1) _ (find_mem g2) _ g3) g4
  exact at_assign q root w (fun q1 x q2 _ hl => absurd hl (hno q1 root hr))

/-- The hypotheses for the value `tol` of a copy of `sample` -/
example : ∃ h1, copyCell sample 0 = .ok (h1, 2) ∧
    valueRef h1 2 ["tol".toList] = .ok (2, "tol".toList) := ⟨_, rfl, rfl⟩

/-! ## C77: malformed path text -/

/-- False: a path text with an empty item addresses the node named by the items before it. -/
theorem C77_false : ∃ (h : Heap) (s : Text), h.wf ∧ Tree h 0 ∧ s = "ctl..hmax".toList ∧
    valueRef h 0 (parsePath s) = valueRef h 0 ["ctl".toList] ∧
    valueRef h 0 (parsePath s) = .ok (0, "ctl".toList) :=
  ⟨sample, _, sample_wf, sample_tree, rfl, rfl, rfl⟩

/-- What holds: a text without empty items addresses exactly what its items say. -/
theorem C77_partial (h : Heap) (root : Nat) (items : List Text)
    (hd : ∀ x ∈ items, x ≠ [] ∧ '.' ∉ x) :
    valueRef h root (parsePath (dots items)) = valueRef h root items := by
  rw [← formatPath_eq, C52_round_trip _ hd]

end Verif.Infra
