import Verif.RK.Kernel
import Verif.RK.Spec

/-! # Packed coefficients -/

set_option linter.unusedSectionVars false

namespace Verif.RK

open Verif.Res

open scoped BigOperators

theorem length_flat {α : Type} (g : Nat → List α) (len : Nat → Nat)
    (hlen : ∀ i, (g i).length = len i) (n : Nat) :
    ((List.range n).flatMap g).length = ((List.range n).map len).sum := by
  induction n with
  | zero => simp
  | succ n ih =>
    rw [List.range_succ, List.flatMap_append, List.length_append, ih, List.map_append,
      List.sum_append]
    simp [hlen]

theorem getElem?_flat {α : Type} (g : Nat → List α) (n i j : Nat) (hi : i < n)
    (hj : j < (g i).length) :
    ((List.range n).flatMap g)[((List.range i).flatMap g).length + j]? = (g i)[j]? := by
  induction n with
  | zero => omega
  | succ n ih =>
    rw [List.range_succ, List.flatMap_append]
    rcases Nat.lt_succ_iff_lt_or_eq.1 hi with hi | rfl
    · rw [List.getElem?_append_left]
      · exact ih hi
      · by_contra hc
        have := ih hi
        rw [List.getElem?_eq_none (by omega), List.getElem?_eq_getElem hj] at this
        cases this
    · rw [List.getElem?_append_right (by omega)]
      simp

theorem sum_tri (n : Nat) : ((List.range n).map (fun i => i)).sum = n * (n - 1) / 2 := by
  induction n with
  | zero => rfl
  | succ n ih =>
    rw [List.range_succ, List.map_append, List.sum_append, ih, tri_succ]
    simp

theorem sum_const (n s : Nat) : ((List.range n).map (fun _ => s)).sum = n * s := by
  simp

section
variable {R V : Type} [CommRing R] [DecidableEq R] [AddCommGroup V] [Module R V]

theorem pack_A (T : Tableau R) (n : Nat) (l : Int) {i j : Nat} (hi : i < T.s) (hj : j < i) :
    (T.pack n l).A i j = T.a i j := by
  have := getElem?_flat (fun i => (List.range i).map (T.a i)) T.s i j hi (by simpa using hj)
  rw [length_flat _ (fun i => i) (by simp), sum_tri] at this
  rw [Coefficients.A, List.getD_eq_getElem?_getD]
  show (((List.range T.s).flatMap (fun i => (List.range i).map (T.a i)))[_]?).getD 0 = _
  rw [this]
  simp [hj]

theorem pack_B (T : Tableau R) (n : Nat) (l : Int) {ix i : Nat} (hx : ix < n) (hi : i < T.s) :
    (T.pack n l).B T.s ix i = T.b ix i := by
  have := getElem?_flat (fun ix => (List.range T.s).map (T.b ix)) n ix i hx (by simpa using hi)
  rw [length_flat _ (fun _ => T.s) (by simp), sum_const] at this
  rw [Coefficients.B, List.getD_eq_getElem?_getD]
  show (((List.range n).flatMap (fun ix => (List.range T.s).map (T.b ix)))[_]?).getD 0 = _
  rw [this]
  simp [hi]

theorem pack_C (T : Tableau R) (n : Nat) (l : Int) (h0 : T.c 0 = 0) {i : Nat} (hi : i < T.s) :
    (T.pack n l).C i = T.c i := by
  cases i with
  | zero => simp [Coefficients.C, h0]
  | succ i =>
    simp only [Coefficients.C, Tableau.pack, List.getD_eq_getElem?_getD]
    rw [List.getElem?_map, List.getElem?_range (by omega)]
    rfl

theorem pack_sizes (T : Tableau R) (n : Nat) (l : Int) (hs : 1 ≤ T.s) :
    (T.pack n l).Sizes T.s n where
  pos := hs
  a := by
    show ((List.range T.s).flatMap (fun i => (List.range i).map (T.a i))).length = _
    rw [length_flat _ (fun i => i) (by simp), sum_tri]
  b := by
    show ((List.range n).flatMap (fun ix => (List.range T.s).map (T.b ix))).length = _
    rw [length_flat _ (fun _ => T.s) (by simp), sum_const, Nat.mul_comm]
  c := by simp only [Tableau.pack, List.length_map, List.length_range]; omega

/-- The stages are determined by their equations. -/
theorem stages_unique (T : Tableau R) (co : Coefficients R) (f : R → V → V) (t h : R) (x : V)
    (n : Nat) (hA : ∀ i j, i < n → j < i → co.A i j = T.a i j) (hC : ∀ i, i < n → co.C i = T.c i)
    {k : List V} (hk : IsStages co f x t h n k) (i : Nat) (hi : i < n) :
    k.getD i 0 = T.stage f t h x i := by
  induction i using Nat.strong_induction_on with
  | _ i ih =>
    rw [hk i hi, Tableau.stage_eq, hC i hi]
    congr 3
    apply Finset.sum_congr rfl
    intro j hj
    rw [Finset.mem_range] at hj
    rw [hA i j hi hj, ih j hj (by omega)]

/-- The tableau stored in packed coefficients. -/
def Coefficients.tableau (co : Coefficients R) (s : Nat) : Tableau R := ⟨s, co.A, co.B s, co.C⟩

theorem compute_tableau (o : Output V) (T : Tableau R) (co : Coefficients R) (f : R → V → V)
    (x1 : V) (t1 h : R) (hs : co.Sizes T.s o.x2.length) (hk : o.k.length = T.s)
    (hA : ∀ i j, i < T.s → j < i → co.A i j = T.a i j)
    (hB : ∀ ix i, ix < o.x2.length → i < T.s → co.B T.s ix i = T.b ix i)
    (hC : ∀ i, i < T.s → co.C i = T.c i) :
    ∃ o', compute o co f x1 t1 h = .ok o' ∧ o'.k.length = T.s ∧
      o'.x2.length = o.x2.length ∧
      (∀ i, i < T.s → o'.k[i]? = some (T.stage f t1 h x1 i)) ∧
      ∀ ix, ix < o.x2.length →
        ((ix : Int) ≠ co.lastK → o'.x2[ix]? = some (T.output f t1 h x1 ix)) ∧
        ((ix : Int) = co.lastK → 2 ≤ T.s → o'.x2[ix]?
          = some (x1 + h • ∑ j ∈ Finset.range (T.s - 1), T.a (T.s - 1) j • T.stage f t1 h x1 j)) ∧
        ((ix : Int) = co.lastK → T.s = 1 → o'.x2[ix]? = some o.buf) := by
  obtain ⟨o', h1, h2, h3, h4, h5⟩ := compute_ok o co f x1 t1 h (by rw [hk]; exact hs)
  have hst := fun i hi => stages_unique T co f t1 h x1 T.s hA hC (by rw [← hk]; exact h4) i hi
  have get : ∀ {l : List V} {i : Nat}, i < l.length → l[i]? = some (l.getD i 0) := by
    intro l i hi
    rw [List.getD_eq_getElem?_getD, List.getElem?_eq_getElem hi]
    rfl
  have hpos := hs.pos
  refine ⟨o', h1, by omega, h3, ?_, ?_⟩
  · intro i hi
    rw [get (by omega), hst i hi]
  · intro ix hix
    obtain ⟨a1, a2, a3⟩ := h5 ix hix
    rw [hk] at a1 a2 a3
    rw [get (by omega)]
    refine ⟨fun hne => ?_, fun he h2s => ?_, fun he h1s => ?_⟩
    · rw [a1 hne, Tableau.output]
      congr 3
      apply Finset.sum_congr rfl
      intro i hi
      rw [Finset.mem_range] at hi
      rw [hB ix i hix hi, hst i hi]
    · rw [a2 he h2s]
      congr 3
      apply Finset.sum_congr rfl
      intro j hj
      rw [Finset.mem_range] at hj
      rw [hA _ j (by omega) hj, hst j (by omega)]
    · rw [a3 he h1s]

end

end Verif.RK
