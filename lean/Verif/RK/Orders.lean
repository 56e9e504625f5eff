import Verif.RK.Kernel
import Verif.RK.Trees
import Mathlib.Data.Rat.Cast.CharZero
import Mathlib.Data.Rat.BigOperators
import Mathlib.Algebra.BigOperators.Field
import Mathlib.Data.Real.Basic
import Mathlib.Tactic.FieldSimp
import Mathlib.Tactic.Linarith
import Mathlib.Algebra.BigOperators.Group.List.Basic

/-! # Checking the order conditions of the tableaux

Order conditions involve all trees with at most `p` vertices, a finite list (`Tree.listUpTo`);
`OrderCheck` evaluates them on ℚ by lists and is lifted to `Tree.OrderConditions`. -/

namespace Verif.RK

open scoped BigOperators

namespace Tree

section
variable {R : Type} [CommRing R]

/-- Scalar product of lists (up to the shorter length). -/
def dotL : List R → List R → R
  | a :: l, b :: m => a * b + dotL l m
  | _, _ => 0

theorem dotL_map (f g : Nat → R) (n m : Nat) (h : n ≤ m) :
    dotL ((List.range n).map f) ((List.range m).map g) = ∑ i ∈ Finset.range n, f i * g i := by
  induction n generalizing f g m with
  | zero => simp [dotL]
  | succ n ih =>
    obtain ⟨m, rfl⟩ : ∃ k, m = k + 1 := ⟨m - 1, by omega⟩
    rw [List.range_succ_eq_map, List.range_succ_eq_map]
    simp only [List.map_cons, List.map_map, dotL]
    rw [ih _ _ m (by omega), Finset.sum_range_succ', add_comm]
    rfl

/-- Elementary weights of all stages. -/
def etaL (rows : List (List R)) : Tree → List R
  | leaf => rows.map (fun _ => 1)
  | graft t u =>
    let tl := etaL rows t
    List.zipWith (fun row e => dotL row tl * e) rows (etaL rows u)

theorem etaL_eq (A : Nat → Nat → R) (s : Nat) (t : Tree) :
    etaL ((List.range s).map (fun i => (List.range i).map (A i))) t
      = (List.range s).map (eta A t) := by
  induction t with
  | leaf => simp only [etaL, List.map_map]; rfl
  | graft t u ih1 ih2 =>
    simp only [etaL, ih1, ih2]
    rw [List.zipWith_map, List.zipWith_self]
    apply List.map_congr_left
    intro i hi
    rw [List.mem_range] at hi
    rw [dotL_map _ _ _ _ (by omega)]
    rfl

theorem eta_scale (A : Nat → Nat → R) (d : R) (t : Tree) (i : Nat) :
    eta (fun i j => d * A i j) t i = d ^ (t.size - 1) * eta A t i := by
  induction t generalizing i with
  | leaf => simp [eta, size]
  | graft t u h1 h2 =>
    simp only [eta, size, h1, h2]
    have e : t.size + u.size - 1 = (t.size - 1 + 1) + (u.size - 1) := by
      have := size_pos t; have := size_pos u; omega
    rw [e, pow_add, pow_succ]
    have : ∑ x ∈ Finset.range i, d * A i x * (d ^ (t.size - 1) * eta A t x)
        = d ^ (t.size - 1) * d * ∑ x ∈ Finset.range i, A i x * eta A t x := by
      rw [Finset.mul_sum]
      apply Finset.sum_congr rfl
      intro x _
      ring
    rw [this]
    ring

theorem map_eta {S : Type} [CommRing S] (f : R →+* S) (A : Nat → Nat → R) (t : Tree) (i : Nat) :
    eta (fun i j => f (A i j)) t i = f (eta A t i) := by
  induction t generalizing i with
  | leaf => simp [eta]
  | graft t u h1 h2 => simp only [eta, h1, h2, map_mul, map_sum]

theorem map_weight {S : Type} [CommRing S] (f : R →+* S) (A : Nat → Nat → R) (b : Nat → R)
    (s : Nat) (t : Tree) :
    weight (fun i j => f (A i j)) (fun i => f (b i)) s t = f (weight A b s t) := by
  simp only [weight, map_eta, map_sum, map_mul]

end

/-- Product over the vertices of the numbers of vertices above, `γ(t)`, by the encoding. -/
def gammaG : Tree → Nat
  | leaf => 1
  | graft t u => gammaG t * t.size * gammaG u

theorem exactG_gamma {R : Type} [Field R] (t : Tree) : (exactG t : R) = 1 / (gammaG t : R) := by
  induction t with
  | leaf => simp [exactG, gammaG]
  | graft t u h1 h2 =>
    simp only [exactG, gammaG, h1, h2]
    push_cast
    rw [one_div, one_div, one_div, mul_inv, mul_inv, div_eq_mul_inv]

theorem exact_gamma {R : Type} [Field R] (t : Tree) :
    (exact t : R) = 1 / ((gammaG t * t.size : Nat) : R) := by
  rw [exact, exactG_gamma]
  push_cast
  rw [one_div, one_div, mul_inv, div_eq_mul_inv]

theorem cast_weight {R : Type} [Field R] [CharZero R] (A : Nat → Nat → ℚ) (b : Nat → ℚ) (s : Nat)
    (t : Tree) :
    weight (fun i j => (A i j : R)) (fun i => (b i : R)) s t = ((weight A b s t : ℚ) : R) :=
  map_weight (Rat.castHom R) A b s t

theorem cast_exact {R : Type} [Field R] [CharZero R] (t : Tree) :
    (exact t : R) = ((exact t : ℚ) : R) := by
  rw [exact_gamma, exact_gamma]
  push_cast
  rfl

theorem OrderConditions.cast {R : Type} [Field R] [CharZero R] {A : Nat → Nat → ℚ} {b : Nat → ℚ}
    {s p : Nat} (h : OrderConditions A b s p) :
    OrderConditions (fun i j => (A i j : R)) (fun i => (b i : R)) s p := by
  intro t ht
  rw [cast_weight, cast_exact, h t ht]

end Tree

section
variable (co : Coefficients ℚ) (s ix : Nat)

/-- Rows of the lower triangle. -/
def Coefficients.rows : List (List ℚ) := (List.range s).map (fun i => (List.range i).map (co.A i))

/-- Coefficients of output `ix`. -/
def Coefficients.outs : List ℚ := (List.range s).map (co.B s ix)

/-- Evaluation of the order conditions. -/
def OrderCheck (p : Nat) : Bool :=
  let rows := co.rows s
  let outs := co.outs s ix
  (Tree.listUpTo p).all (fun t =>
    Tree.dotL outs (Tree.etaL rows t) * ((t.gammaG * t.size : Nat) : ℚ) == 1)

theorem weight_eq_dotL (t : Tree) :
    Tree.weight co.A (co.B s ix) s t = Tree.dotL (co.outs s ix) (Tree.etaL (co.rows s) t) := by
  rw [Coefficients.rows, Tree.etaL_eq, Coefficients.outs, Tree.dotL_map _ _ _ _ (le_refl _)]
  rfl

theorem orderConditions_of_check {p : Nat} (h : OrderCheck co s ix p = true) :
    Tree.OrderConditions co.A (co.B s ix) s p := by
  intro t ht
  have := List.all_eq_true.1 h t (Tree.mem_listUpTo.2 ht)
  rw [← weight_eq_dotL, beq_iff_eq] at this
  rw [Tree.exact_gamma]
  have hne : ((t.gammaG * t.size : Nat) : ℚ) ≠ 0 := by
    intro hz
    rw [hz, mul_zero] at this
    exact zero_ne_one this
  rw [eq_div_iff hne]
  exact this

/-- Integer numerators of rationals over the common denominator `d`. -/
def numer (d : Nat) (q : ℚ) : Int := q.num * (d / q.den : Nat)

/-- The defects of the order conditions are at most `1 / n`: the conditions are evaluated on
integers, with the coefficients `a` multiplied by `d` and `b` by `d'`. -/
def DefectCheck (d d' : Nat) (p n : Nat) : Bool :=
  let rows := (List.range s).map (fun i => (List.range i).map (fun j => numer d (co.A i j)))
  let outs := (List.range s).map (fun i => numer d' (co.B s ix i))
  decide (0 < d) && decide (0 < d') && decide (0 < n) &&
  co.a.all (fun q => d % q.den == 0) && co.b.all (fun q => d' % q.den == 0) &&
  (Tree.listUpTo p).all (fun t =>
    let g : Int := (t.gammaG * t.size : Nat)
    let D : Int := (d' * d ^ (t.size - 1) : Nat)
    let e := (Tree.dotL outs (Tree.etaL rows t) * g - D) * n
    decide (0 < g) && decide (e ≤ g * D) && decide (-e ≤ g * D))

theorem numer_eq {d : Nat} {q : ℚ} (h : d % q.den = 0) : ((numer d q : Int) : ℚ) = d * q := by
  obtain ⟨k, rfl⟩ := Nat.dvd_of_mod_eq_zero h
  have hp := q.den_pos
  rw [numer, Nat.mul_div_cancel_left _ hp]
  push_cast
  have : (q.den : ℚ) * q = q.num := Rat.den_mul_eq_num q
  rw [mul_comm (q.den : ℚ), mul_assoc, this, mul_comm]

theorem numer_zero (d : Nat) : numer d 0 = 0 := by simp [numer]

theorem numer_getD {d : Nat} {l : List ℚ} (h : l.all (fun q => d % q.den == 0) = true) (i : Nat) :
    ((numer d (l.getD i 0) : Int) : ℚ) = d * l.getD i 0 := by
  by_cases hi : i < l.length
  · have := List.all_eq_true.1 h (l[i]) (List.getElem_mem hi)
    rw [beq_iff_eq] at this
    rw [List.getD_eq_getElem?_getD, List.getElem?_eq_getElem hi]
    exact numer_eq this
  · rw [List.getD_eq_getElem?_getD, List.getElem?_eq_none (by omega)]
    simp [numer_zero]

theorem defect_of_check {d d' p n : Nat} (h : DefectCheck co s ix d d' p n = true) (t : Tree)
    (ht : t.size ≤ p) :
    |Tree.weight co.A (co.B s ix) s t - Tree.exact t| ≤ 1 / (n : ℚ) := by
  unfold DefectCheck at h
  simp only [Bool.and_eq_true, decide_eq_true_eq] at h
  obtain ⟨⟨⟨⟨⟨hd, hd'⟩, hn⟩, ha⟩, hb⟩, hall⟩ := h
  have := List.all_eq_true.1 hall t (Tree.mem_listUpTo.2 ht)
  rw [Tree.etaL_eq, Tree.dotL_map _ _ _ _ (le_refl _)] at this
  simp only [Bool.and_eq_true, decide_eq_true_eq] at this
  obtain ⟨⟨hg, h1⟩, h2⟩ := this
  have hw : ((∑ i ∈ Finset.range s, numer d' (co.B s ix i) *
        Tree.eta (fun i j => numer d (co.A i j)) t i : Int) : ℚ)
      = d' * d ^ (t.size - 1) * Tree.weight co.A (co.B s ix) s t := by
    push_cast
    rw [Tree.weight, Finset.mul_sum]
    apply Finset.sum_congr rfl
    intro i _
    have e := Tree.map_eta (Int.castRingHom ℚ) (fun i j => numer d (co.A i j)) t i
    simp only [eq_intCast] at e
    rw [← e]
    have e2 : (fun i j => ((numer d (co.A i j) : Int) : ℚ)) = fun i j => (d : ℚ) * co.A i j := by
      funext i j
      exact numer_getD ha _
    rw [e2, Tree.eta_scale, show ((numer d' (co.B s ix i) : Int) : ℚ) = d' * co.B s ix i from
      numer_getD hb _]
    ring
  set w := Tree.weight co.A (co.B s ix) s t with hwd
  have hgq : (0 : ℚ) < ((t.gammaG * t.size : Nat) : ℚ) := by exact_mod_cast hg
  have hDq : (0 : ℚ) < ((d' * d ^ (t.size - 1) : Nat) : ℚ) := by
    have : 0 < d' * d ^ (t.size - 1) := Nat.mul_pos hd' (Nat.pow_pos hd)
    exact_mod_cast this
  have hnq : (0 : ℚ) < n := by exact_mod_cast hn
  have h1q := (Int.cast_le (R := ℚ)).2 h1
  have h2q := (Int.cast_le (R := ℚ)).2 h2
  rw [Int.cast_mul, Int.cast_sub, Int.cast_mul, hw, Int.cast_mul] at h1q
  rw [Int.cast_neg, Int.cast_mul, Int.cast_sub, Int.cast_mul, hw, Int.cast_mul] at h2q
  simp only [Int.cast_natCast] at h1q h2q
  rw [Tree.exact_gamma]
  set g : ℚ := ((t.gammaG * t.size : Nat) : ℚ)
  set D : ℚ := ((d' * d ^ (t.size - 1) : Nat) : ℚ) with hD
  have hDe : (d' : ℚ) * (d : ℚ) ^ (t.size - 1) = D := by rw [hD]; push_cast; rfl
  rw [hDe] at h1q h2q
  have hgD : 0 < g * D := mul_pos hgq hDq
  have key : w - 1 / g = ((D * w * g - D) * n) / (g * D * n) := by
    field_simp
  rw [key, abs_div, abs_of_pos (mul_pos hgD hnq), div_le_div_iff₀ (mul_pos hgD hnq) hnq]
  have : |(D * w * g - D) * ↑n| ≤ g * D := abs_le.2 ⟨by linarith, h1q⟩
  calc _ ≤ g * D * n := mul_le_mul_of_nonneg_right this hnq.le
    _ = _ := by ring

/-- Nodes are the row sums. -/
def RowCheck : Bool :=
  (List.range s).all (fun i => co.C i == ((List.range i).map (co.A i)).sum)

theorem rows_of_check (h : RowCheck co s = true) (i : Nat) (hi : i < s) :
    co.C i = ∑ j ∈ Finset.range i, co.A i j := by
  have := List.all_eq_true.1 h i (List.mem_range.2 hi)
  rw [beq_iff_eq] at this
  rw [this, Finset.sum_range]
  rw [← List.sum_ofFn]
  congr 1
  apply List.ext_getElem <;> simp

/-- Nodes differ from the row sums by at most `ε`. -/
def RowDefectCheck (ε : ℚ) : Bool :=
  (List.range s).all (fun i =>
    let d := co.C i - ((List.range i).map (co.A i)).sum
    decide (d ≤ ε) && decide (-ε ≤ d))

theorem rowDefect_of_check {ε : ℚ} (h : RowDefectCheck co s ε = true) (i : Nat) (hi : i < s) :
    |co.C i - ∑ j ∈ Finset.range i, co.A i j| ≤ ε := by
  have := List.all_eq_true.1 h i (List.mem_range.2 hi)
  rw [Bool.and_eq_true, decide_eq_true_eq, decide_eq_true_eq] at this
  have e : ((List.range i).map (co.A i)).sum = ∑ j ∈ Finset.range i, co.A i j := by
    rw [Finset.sum_range, ← List.sum_ofFn]
    congr 1
    apply List.ext_getElem <;> simp
  rw [e] at this
  exact abs_le.2 ⟨this.2, this.1⟩

end

/-- Coefficients mapped to another ring. -/
def Coefficients.map {R S : Type} (f : R → S) (co : Coefficients R) : Coefficients S :=
  ⟨co.a.map f, co.b.map f, co.c.map f, co.lastK⟩

theorem getD_map_cast {R : Type} [Field R] (l : List ℚ) (i : Nat) :
    (l.map (fun x : ℚ => (x : R))).getD i 0 = ((l.getD i 0 : ℚ) : R) := by
  simp only [List.getD_eq_getElem?_getD, List.getElem?_map]
  cases l[i]? <;> simp

/-- The tableau with coefficients in the field `R`. -/
def Coefficients.cast (R : Type) [Field R] (co : Coefficients ℚ) : Coefficients R :=
  co.map (fun x : ℚ => (x : R))

section
variable {R : Type} [Field R] (co : Coefficients ℚ)

theorem cast_A (i j : Nat) : (co.cast R).A i j = (co.A i j : R) := getD_map_cast _ _
theorem cast_B (s ix i : Nat) : (co.cast R).B s ix i = (co.B s ix i : R) := getD_map_cast _ _
theorem cast_C (i : Nat) : (co.cast R).C i = (co.C i : R) := by
  cases i with
  | zero => simp [Coefficients.C]
  | succ i => exact getD_map_cast _ _

theorem cast_sizes {s n : Nat} (h : co.Sizes s n) : (co.cast R).Sizes s n :=
  ⟨h.pos, by simpa [Coefficients.cast, Coefficients.map] using h.a,
    by simpa [Coefficients.cast, Coefficients.map] using h.b,
    by simpa [Coefficients.cast, Coefficients.map] using h.c⟩

end

theorem euler_check : OrderCheck euler 1 0 1 = true := by decide +kernel
theorem rk4_check : OrderCheck rk4 4 0 4 = true := by decide +kernel
theorem dopri45_high : OrderCheck dopri45 7 0 5 = true := by decide +kernel
theorem dopri45_low : OrderCheck dopri45 7 1 4 = true := by decide +kernel
theorem dopri56_high : OrderCheck dopri56 8 0 6 = true := by decide +kernel
theorem dopri56_low : OrderCheck dopri56 8 1 5 = true := by decide +kernel

/-- Common denominator of a list of rationals. -/
def commonDen (l : List ℚ) : Nat := l.foldl (fun d q => Nat.lcm d q.den) 1

theorem dopri78_high :
    DefectCheck dopri78 13 0 (commonDen dopri78.a) (commonDen dopri78.b) 8 (10 ^ 17) = true := by
  decide +kernel
theorem dopri78_rows : RowDefectCheck dopri78 13 (2 / 10 ^ 17) = true := by decide +kernel
theorem dopri78_low :
    DefectCheck dopri78 13 1 (commonDen dopri78.a) (commonDen dopri78.b) 7 (10 ^ 17) = true := by
  decide +kernel

end Verif.RK
