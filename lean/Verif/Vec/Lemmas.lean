import Verif.Vec.Spec
import Verif.Loop
import Mathlib.Algebra.BigOperators.Group.List.Basic
import Mathlib.Algebra.BigOperators.Group.Finset.Basic
import Mathlib.Tactic.Ring

namespace Verif.Vec

open Verif.Res

set_option linter.unusedSectionVars false

variable {K : Type} [CommRing K]

theorem at_lt {l : List K} {i : Nat} (h : i < l.length) : at' l i = .ok (l.getD i 0) := by
  simp [at', List.getElem?_eq_getElem h, List.getD_eq_getElem?_getD]

theorem raw_lt {l : List K} {i : Nat} (h : i < l.length) : raw l i = .ok (l.getD i 0) := by
  simp [raw, List.getElem?_eq_getElem h, List.getD_eq_getElem?_getD]

theorem at_ge {l : List K} {i : Nat} (h : l.length ≤ i) :
    at' l i = .error (.exc "out_of_range") := by
  simp [at', List.getElem?_eq_none h]

theorem raw_ge {l : List K} {i : Nat} (h : l.length ≤ i) : raw l i = .error .ub := by
  simp [raw, List.getElem?_eq_none h]

theorem getD_set {l : List K} {i j : Nat} {a : K} (h : i < l.length) :
    (l.set i a).getD j 0 = if j = i then a else l.getD j 0 := by
  simp only [List.getD_eq_getElem?_getD, List.getElem?_set]
  by_cases hij : i = j
  · subst hij
    simp [h]
  · rw [if_neg hij, if_neg (Ne.symm hij)]

theorem getD_take_drop {v : List K} {st n i : Nat} (h : i < n) :
    ((v.drop st).take n).getD i 0 = v.getD (i + st) 0 := by
  simp only [List.getD_eq_getElem?_getD]
  rw [List.getElem?_take_of_lt h, List.getElem?_drop, Nat.add_comm]

theorem getD_map {v : List K} {c : K} {i : Nat} (h : i < v.length) :
    (v.map (· * c)).getD i 0 = v.getD i 0 * c := by
  simp [List.getD_eq_getElem?_getD, List.getElem?_eq_getElem h]

theorem ext_getD {l m : List K} (hl : l.length = m.length)
    (h : ∀ i, i < m.length → l.getD i 0 = m.getD i 0) : l = m := by
  apply List.ext_getElem hl
  intro i h1 h2
  have := h i h2
  simpa [List.getD_eq_getElem?_getD, List.getElem?_eq_getElem h1, List.getElem?_eq_getElem h2]
    using this

theorem size_val {mem : List K} {s : Src K} {v : List K} (h : s.val mem = some v) :
    s.size mem = v.length := by
  induction s generalizing v with
  | self => cases h; rfl
  | vec l => cases h; rfl
  | block s st n ih =>
    unfold Src.val at h
    cases hs : s.val mem with
    | none => rw [hs] at h; cases h
    | some w =>
      rw [hs] at h
      simp only at h
      split at h
      · cases h
        simp only [Src.size, List.length_take, List.length_drop]
        omega
      · cases h
  | scale s c ih =>
    unfold Src.val at h
    cases hs : s.val mem with
    | none => rw [hs] at h; cases h
    | some w =>
      rw [hs] at h
      cases h
      simp only [Src.size, List.length_map]
      exact ih hs

theorem at_val {mem : List K} {s : Src K} {v : List K} (h : s.val mem = some v) {i : Nat}
    (hi : i < v.length) : s.at mem i = .ok (v.getD i 0) ∧ s.deref mem i = .ok (v.getD i 0) := by
  induction s generalizing v i with
  | self => cases h; exact ⟨at_lt hi, raw_lt hi⟩
  | vec l => cases h; exact ⟨at_lt hi, raw_lt hi⟩
  | block s st n ih =>
    unfold Src.val at h
    cases hs : s.val mem with
    | none => rw [hs] at h; cases h
    | some w =>
      rw [hs] at h
      simp only at h
      split at h
      · cases h
        simp only [List.length_take, List.length_drop] at hi
        rw [getD_take_drop (by omega)]
        exact ih hs (i := i + st) (by omega)
      · cases h
  | scale s c ih =>
    unfold Src.val at h
    cases hs : s.val mem with
    | none => rw [hs] at h; cases h
    | some w =>
      rw [hs] at h
      cases h
      simp only [List.length_map] at hi
      obtain ⟨h1, h2⟩ := ih hs hi
      simp only [Src.at, Src.deref, h1, h2, bind_ok, getD_map hi, and_self]

/-- Element `i` of an operand depends only on one element of the vector being changed. -/
theorem at_local {mem mem' : List K} {s : Src K} {i : Nat}
    (h : ∀ o, s.origin = some o → mem'[o + i]? = mem[o + i]?) :
    s.at mem' i = s.at mem i ∧ s.deref mem' i = s.deref mem i := by
  induction s generalizing i with
  | self =>
    have := h 0 rfl
    rw [Nat.zero_add] at this
    simp only [Src.at, Src.deref, at', raw, this, and_self]
  | vec l => exact ⟨rfl, rfl⟩
  | block s st n ih =>
    simp only [Src.at, Src.deref]
    refine ih (i := i + st) (fun o ho => ?_)
    have := h (o + st) (by simp [Src.origin, ho])
    rw [show o + (i + st) = o + st + i by omega]
    exact this
  | scale s c ih =>
    obtain ⟨h1, h2⟩ := ih (i := i) (fun o ho => h o ho)
    simp only [Src.at, Src.deref, h1, h2, and_self]

theorem at_never_ub (mem : List K) (s : Src K) (i : Nat) :
    (∃ a, s.at mem i = .ok a) ∨ s.at mem i = .error (.exc "out_of_range") := by
  have key : ∀ (l : List K) i, (∃ a, at' l i = .ok a) ∨ at' l i = .error (.exc "out_of_range") := by
    intro l i
    by_cases h : i < l.length
    · exact .inl ⟨_, at_lt h⟩
    · exact .inr (at_ge (by omega))
  induction s generalizing i with
  | self => exact key mem i
  | vec l => exact key l i
  | block s st n ih => exact ih (i + st)
  | scale s c ih =>
    rcases ih i with ⟨a, h⟩ | h
    · exact .inl ⟨a * c, by simp [Src.at, h]⟩
    · exact .inr (by simp [Src.at, h])

theorem whole_beyond {mem : List K} {s : Src K} (hw : s.whole = true) {i : Nat}
    (hi : s.size mem ≤ i) : s.at mem i = .error (.exc "out_of_range") ∧
      s.deref mem i = .error .ub := by
  induction s with
  | self => exact ⟨at_ge hi, raw_ge hi⟩
  | vec l => exact ⟨at_ge hi, raw_ge hi⟩
  | block _ _ _ _ => cases hw
  | scale s c ih =>
    obtain ⟨h1, h2⟩ := ih hw hi
    simp [Src.at, Src.deref, h1, h2]

theorem whole_val {mem : List K} {s : Src K} (hw : s.whole = true) : ∃ v, s.val mem = some v := by
  induction s with
  | self => exact ⟨_, rfl⟩
  | vec l => exact ⟨_, rfl⟩
  | block _ _ _ _ => cases hw
  | scale s c ih =>
    obtain ⟨v, hv⟩ := ih hw
    exact ⟨_, by simp [Src.val, hv]; rfl⟩

theorem fixed_val (mem mem' : List K) (s : Src K) : (s.fixed mem).val mem' = s.val mem := by
  induction s with
  | self => rfl
  | vec l => rfl
  | block s st n ih => simp only [Src.fixed, Src.val, ih]
  | scale s c ih => simp only [Src.fixed, Src.val, ih]

theorem fixed_origin (mem : List K) (s : Src K) : (s.fixed mem).origin = none := by
  induction s with
  | self => rfl
  | vec l => rfl
  | block s st n ih => simp only [Src.fixed, Src.origin, ih, Option.map_none]
  | scale s c ih => simp only [Src.fixed, Src.origin, ih]

theorem runFrom_inv {f : Nat → List K → Res (List K)} (P : Nat → List K → Prop) (n i : Nat)
    (m : List K) (h0 : P i m)
    (hs : ∀ j m, i ≤ j → j < i + n → P j m → ∃ m', f j m = .ok m' ∧ P (j + 1) m') :
    ∃ m', runFrom f n i m = (m', none) ∧ P (i + n) m' := by
  induction n generalizing i m with
  | zero => exact ⟨m, rfl, h0⟩
  | succ n ih =>
    obtain ⟨m1, h1, h2⟩ := hs i m (Nat.le_refl _) (by omega) h0
    obtain ⟨m2, h3, h4⟩ := ih (i + 1) m1 h2 (fun j m h h' => hs j m (by omega) (by omega))
    refine ⟨m2, ?_, by rw [show i + (n + 1) = i + 1 + n by omega]; exact h4⟩
    unfold runFrom
    rw [h1]
    exact h3

theorem runFrom_succ {f : Nat → List K → Res (List K)} (n i : Nat) (m : List K) :
    runFrom f (n + 1) i m = match f i m with
      | .ok m' => runFrom f n (i + 1) m'
      | .error e => (m, some e) := rfl

theorem runFrom_add {f : Nat → List K → Res (List K)} (a b i : Nat) (m : List K) :
    runFrom f (a + b) i m = match runFrom f a i m with
      | (m', none) => runFrom f b (i + a) m'
      | r => r := by
  induction a generalizing i m with
  | zero => simp [runFrom]
  | succ a ih =>
    rw [show a + 1 + b = (a + b) + 1 by omega, runFrom_succ, runFrom_succ]
    cases f i m with
    | error e => rfl
    | ok m' =>
      simp only
      rw [ih, show i + 1 + a = i + (a + 1) by omega]

theorem runFrom_fault {f : Nat → List K → Res (List K)} {E : Fault → Prop}
    (hf : ∀ i m, Post (f i m) (fun _ => True) E) (n i : Nat) (m : List K) (e : Fault)
    (h : (runFrom f n i m).2 = some e) : E e := by
  induction n generalizing i m with
  | zero => cases h
  | succ n ih =>
    unfold runFrom at h
    cases hm : f i m with
    | ok m' => rw [hm] at h; exact ih _ _ h
    | error e' =>
      rw [hm] at h
      cases h
      have := hf i m
      rw [hm] at this
      exact this

/-- One step of a componentwise update. -/
def body (g : K → K → K) (t : Tgt) (s : Src K) (i : Nat) (m : List K) : Res (List K) := do
  let a ← at' m (i + t.start)
  let b ← s.at m i
  atSet m (i + t.start) (g a b)

theorem getElem?_of_getD {l m : List K} (hl : l.length = m.length) {i : Nat}
    (h : l.getD i 0 = m.getD i 0) : l[i]? = m[i]? := by
  by_cases hi : i < l.length
  · rw [List.getElem?_eq_getElem hi, List.getElem?_eq_getElem (by omega)]
    simpa [List.getD_eq_getElem?_getD, List.getElem?_eq_getElem hi,
      List.getElem?_eq_getElem (show i < m.length by omega)] using h
  · rw [List.getElem?_eq_none (by omega), List.getElem?_eq_none (by omega)]

theorem Updated.step {g : K → K → K} {mem : List K} {t : Tgt} {v m : List K} {j : Nat}
    (hm : Updated g mem t v j m) (hj : t.start + j < mem.length) :
    Updated g mem t v (j + 1) (m.set (j + t.start) (g (m.getD (j + t.start) 0) (v.getD j 0))) := by
  obtain ⟨h1, h2⟩ := hm
  refine ⟨by simpa using h1, ?_⟩
  intro k
  rw [getD_set (by omega)]
  by_cases hk : k = j + t.start
  · subst hk
    rw [if_pos rfl, if_pos ⟨by omega, by omega⟩, h2, if_neg (by omega)]
    rw [Nat.add_sub_cancel]
  · rw [if_neg hk, h2]
    by_cases hc : t.start ≤ k ∧ k < t.start + j
    · rw [if_pos hc, if_pos ⟨hc.1, by omega⟩]
    · rw [if_neg hc, if_neg (by omega)]

theorem run_body (g : K → K → K) (mem : List K) (t : Tgt) (s : Src K) (v : List K)
    (hv : s.val mem = some v) (ht : t.start + t.size ≤ mem.length) (hs : s.safe t) (k : Nat)
    (hk : k ≤ t.size) (hkv : k ≤ v.length) :
    ∃ m, runFrom (body g t s) k 0 mem = (m, none) ∧ Updated g mem t v k m := by
  have := runFrom_inv (f := body g t s) (fun j m => Updated g mem t v j m) k 0 mem
    ⟨rfl, fun j => by rw [if_neg (by omega)]⟩ (by
      intro j m _ hj hm
      refine ⟨_, ?_, hm.step (by omega)⟩
      unfold body
      rw [at_lt (by rw [hm.1]; omega)]
      have hat : s.at m j = .ok (v.getD j 0) := by
        rw [← (at_val hv (i := j) (by omega)).1]
        refine (at_local (fun o ho => getElem?_of_getD hm.1 ?_)).1
        rw [hm.2, if_neg]
        rcases hs o ho with h | h <;> omega
      rw [hat]
      simp only [bind_ok]
      unfold atSet
      rw [if_pos (by rw [hm.1]; omega)])
  rw [Nat.zero_add] at this
  exact this

end Verif.Vec
