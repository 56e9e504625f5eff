import Verif.Vec.Model
import Verif.Loop

/-! # C46 for `VectorTemplate::toString` -/

namespace Verif.Vec

open Verif.Res

section
variable {K : Type}

/-- Texts to be shown: all elements if there are at most `2 L`, else the first `L`, dots, and the
last `L`. -/
def shown (sh : K → String) (l : List K) (L : Nat) : List String :=
  if l.length ≤ 2 * L then l.map sh
  else (l.take L).map sh ++ ["..."] ++ (l.drop (l.length - L)).map sh

/-- Texts separated by commas, appended to `out`; `first` if no comma is due. -/
def emit (out : String) (first : Bool) : List String → String
  | [] => out
  | t :: ts => emit (out ++ (if first then "" else ", ") ++ t) false ts

theorem emit_append (a b : List String) (out : String) (f : Bool) :
    emit out f (a ++ b) = emit (emit out f a) (f && a.isEmpty) b := by
  induction a generalizing out f with
  | nil => simp [emit]
  | cons t ts ih => simp [emit, ih]

theorem emit_true (ts : List String) (out : String) :
    emit out true ts = out ++ String.intercalate ", " ts := by
  have h : ∀ (ts : List String) (out t : String),
      emit (out ++ t) false ts = out ++ String.intercalate ", " (t :: ts) := by
    intro ts
    induction ts with
    | nil => intro out t; simp [emit]
    | cons u ts ih =>
      intro out t
      rw [String.intercalate_cons_cons]
      show emit (out ++ t ++ ", " ++ u) false ts = _
      rw [show out ++ t ++ ", " ++ u = (out ++ t ++ ", ") ++ u from rfl, ih]
      simp [String.append_assoc]
  cases ts with
  | nil => simp [emit]
  | cons t ts =>
    rw [← h]
    simp [emit]

theorem loop_succ (sh : K → String) (l : List K) (n L fuel i : Nat) (out : String) :
    toStringLoop sh l n L (fuel + 1) i out = if i < n then
      match toStringStep sh l n L i out with
      | .ok (i', out') => toStringLoop sh l n L fuel i' out'
      | .error e => some (.error e)
    else some (.ok out) := rfl

theorem loop_plain (sh : K → String) (l : List K) (n L : Nat) (hn : l.length = n) (k i fuel : Nat)
    (out : String) (hi : i + k ≤ n)
    (hj : ∀ j, i ≤ j → j < i + k → ¬ (j = L ∧ (2 * L) % 4294967296 < n)) :
    toStringLoop sh l n L (fuel + k) i out
      = toStringLoop sh l n L fuel (i + k) (emit out (i == 0) (((l.drop i).take k).map sh)) := by
  induction k generalizing i out with
  | zero => simp [emit]
  | succ k ih =>
    rw [← Nat.add_assoc, loop_succ, if_pos (by omega)]
    have hil : i < l.length := by omega
    have hstep : toStringStep sh l n L i out
        = .ok (i + 1, (if 0 < i then out ++ ", " else out) ++ sh l[i]) := by
      unfold toStringStep
      simp only
      rw [if_neg (hj i (Nat.le_refl _) (by omega))]
      simp [at', List.getElem?_eq_getElem hil]
    rw [hstep]
    simp only
    rw [ih (i + 1) _ (by omega) (fun j h1 h2 => hj j (by omega) (by omega))]
    rw [show i + 1 + k = i + (k + 1) by omega, List.drop_eq_getElem_cons hil]
    simp only [List.take_succ_cons, List.map_cons, emit]
    have h1 : (i + 1 == 0) = false := by simp
    rw [h1]
    by_cases h0 : i = 0
    · subst h0; simp
    · rw [if_pos (by omega), if_neg (by simp [h0])]

/-- C46. For vectors of at most 2³¹ elements printing ends and shows exactly the texts of the
selected components, separated by commas, in brackets. -/
theorem C46_toString (sh : K → String) (l : List K) (L : Nat) (hL : L < 4294967296)
    (hl : l.length ≤ 2147483648) (fuel : Nat) (hf : l.length + 2 ≤ fuel) :
    toString sh l L fuel = some (.ok ("[" ++ String.intercalate ", " (shown sh l L) ++ "]")) := by
  obtain ⟨n, hn⟩ : ∃ n, l.length = n := ⟨_, rfl⟩
  unfold toString
  rw [Nat.mod_eq_of_lt (by omega), hn]
  have hend : ∀ fuel out, 0 < fuel → toStringLoop sh l n L fuel n out = some (.ok out) := by
    intro fuel out h
    obtain ⟨k, rfl⟩ : ∃ k, fuel = k + 1 := ⟨fuel - 1, by omega⟩
    unfold toStringLoop
    rw [if_neg (by omega)]
  have hres : toStringLoop sh l n L fuel 0 "[" = some (.ok (emit "[" true (shown sh l L))) := by
    by_cases hc : n ≤ 2 * L
    · obtain ⟨f', rfl⟩ : ∃ f', fuel = f' + n := ⟨fuel - n, by omega⟩
      rw [loop_plain sh l n L hn n 0 f' _ (by omega), Nat.zero_add, hend _ _ (by omega)]
      · rw [shown, if_pos (by omega), List.drop_zero, ← hn, List.take_length]
        rfl
      · intro j _ hj ⟨h1, h2⟩
        by_cases hb : 2 * L < 4294967296
        · rw [Nat.mod_eq_of_lt hb] at h2
          omega
        · omega
    · have hb : 2 * L < 4294967296 := by omega
      obtain ⟨f', rfl⟩ : ∃ f', fuel = f' + L + 1 + L := ⟨fuel - 2 * L - 1, by omega⟩
      rw [loop_plain sh l n L hn L 0 _ _ (by omega) (by omega), Nat.zero_add]
      rw [show f' + L + 1 = (f' + L) + 1 by rfl]
      rw [loop_succ, if_pos (by omega)]
      have hstep : ∀ out, toStringStep sh l n L L out
          = .ok (n - L, (if 0 < L then out ++ ", " else out) ++ "...") := by
        intro out
        unfold toStringStep
        rw [Nat.mod_eq_of_lt hb]
        exact if_pos ⟨rfl, by omega⟩
      rw [hstep]
      simp only
      rw [loop_plain sh l n L hn L (n - L) f' _ (by omega)
        (fun j h1 _ h3 => by omega),
        show n - L + L = n by omega, hend _ _ (by omega)]
      congr 2
      rw [shown, if_neg (show ¬ l.length ≤ 2 * L by omega), List.drop_zero, List.append_assoc,
        emit_append, hn]
      have h0 : ((n - L) == 0) = false := by
        have : n - L ≠ 0 := by omega
        simpa using this
      have htk : (l.drop (n - L)).take L = l.drop (n - L) := by
        apply List.take_of_length_le
        simp; omega
      rw [h0, htk]
      simp only [List.singleton_append, emit]
      congr 1
      by_cases hz : L = 0
      · subst hz; simp [emit]
      · have : ((l.take L).map sh).isEmpty = false := by
          rw [List.isEmpty_eq_false_iff]
          intro h
          have := congrArg List.length h
          rw [List.length_map, List.length_take, List.length_nil] at this
          omega
        rw [this]
        simp [show 0 < L by omega]
  rw [hres, emit_true]

/-- C46 fails for a vector of 2³¹ + 1 elements printed with limit 2³¹: the doubled limit wraps to
zero and printing never ends. -/
theorem C46_huge_false (sh : K → String) (l : List K) (hl : l.length = 2147483649) (fuel : Nat) :
    toString sh l 2147483648 fuel = none := by
  have h : ∀ fuel i out, i ≤ 2147483648 →
      toStringLoop sh l 2147483649 2147483648 fuel i out = none := by
    intro fuel
    induction fuel with
    | zero => intros; rfl
    | succ fuel ih =>
      intro i out hi
      unfold toStringLoop
      rw [if_pos (by omega)]
      by_cases hc : i = 2147483648
      · have : toStringStep sh l 2147483649 2147483648 i out
            = .ok (1, (if 0 < i then out ++ ", " else out) ++ "...") := by
          unfold toStringStep
          simp only
          rw [if_pos ⟨hc, by decide⟩]
        rw [this]
        exact ih _ _ (by omega)
      · have : toStringStep sh l 2147483649 2147483648 i out
            = .ok (i + 1, (if 0 < i then out ++ ", " else out) ++ sh (l[i]'(by omega))) := by
          unfold toStringStep
          simp only
          rw [if_neg (fun h => hc h.1)]
          simp [at', List.getElem?_eq_getElem (show i < l.length by omega)]
        rw [this]
        exact ih _ _ (by omega)
  unfold toString
  rw [hl]
  rw [show 2147483649 % 4294967296 = 2147483649 by decide, h _ _ _ (by omega)]

end

/-- Five elements, limit 1, 0 and the default. -/
example : toString (K := Nat) Nat.repr [1, 2, 3, 4, 5] 1 7 = some (.ok "[1, ..., 5]") ∧
    toString (K := Nat) Nat.repr [1, 2, 3, 4, 5] 0 7 = some (.ok "[...]") ∧
    toString (K := Nat) Nat.repr [1, 2, 3] 4294967295 5 = some (.ok "[1, 2, 3]") := by
  decide +kernel

end Verif.Vec
