import Verif.Alg.JacModel
import Verif.Alg.FiniteDiff
import Verif.Sparse.Props
import Mathlib.Data.Rat.Lemmas

/-! # Properties of the Jacobian trimmers and of the rank-one updates -/

namespace Verif.Alg

open Verif.Res Verif.Vec Verif.Sparse

set_option linter.unusedSectionVars false

/-! ### Trimmers -/

theorem set_append {K : Type} [Zero K] (m : Data K) (i : Index) (v : K)
    (h : ∀ x ∈ m, ltI x.1 i = true) : m.set i v = m ++ [(i, v)] := by
  induction m with
  | nil => rfl
  | cons e m ih =>
    have he := h e List.mem_cons_self
    have h1 : ltI i e.1 = false := by
      cases hlt : ltI i e.1 with
      | false => rfl
      | true => exact absurd (ltI_trans he hlt) (by rw [ltI_irrefl]; decide)
    have := ih (fun x hx => h x (List.mem_cons_of_mem _ hx))
    unfold Data.set Data.modify
    rw [if_neg (by rw [h1]; decide), if_neg (ltI_ne he)]
    unfold Data.set at this
    rw [this, List.cons_append]

theorem foldl_keep {K : Type} [Zero K] (p : Index × K → Prop) [DecidablePred p] (es acc : List (Index × K))
    (h : Increasing es) (ha : ∀ x ∈ acc, ∀ e ∈ es, ltI x.1 e.1 = true) :
    es.foldl (fun d e => if p e then Data.set d e.1 e.2 else d) acc = acc ++ es.filter (fun e => p e) := by
  induction es generalizing acc with
  | nil => simp
  | cons e es ih =>
    rw [Sparse.inc_cons] at h
    rw [List.foldl_cons]
    by_cases hp : p e
    · rw [if_pos hp, set_append acc e.1 e.2 (fun x hx => ha x hx e List.mem_cons_self), ih _ h.2,
        List.filter_cons_of_pos (by simpa using hp), List.append_assoc]
      · rfl
      · intro x hx e' he'
        rcases List.mem_append.1 hx with hx | hx
        · exact ha x hx e' (List.mem_cons_of_mem _ he')
        · rw [List.mem_singleton] at hx
          subst hx
          exact h.1 e' he'
    · rw [if_neg hp, ih _ h.2 (fun x hx e' he' => ha x hx e' (List.mem_cons_of_mem _ he')),
        List.filter_cons_of_neg (by simpa using hp)]

section
variable {K : Type} [Field K] [LinearOrder K] [IsStrictOrderedRing K]

theorem foldl_max (es : List (Index × K)) (z : K) :
    z ≤ es.foldl (fun m e => max m |e.2|) z ∧ (∀ e ∈ es, |e.2| ≤ es.foldl (fun m e => max m |e.2|) z) ∧
      (es.foldl (fun m e => max m |e.2|) z = z ∨
        ∃ e ∈ es, |e.2| = es.foldl (fun m e => max m |e.2|) z) := by
  induction es generalizing z with
  | nil => simp
  | cons e es ih =>
    obtain ⟨h1, h2, h3⟩ := ih (max z |e.2|)
    rw [List.foldl_cons]
    refine ⟨(le_max_left _ _).trans h1, ?_, ?_⟩
    · intro x hx
      rcases List.mem_cons.1 hx with rfl | hx
      · exact (le_max_right _ _).trans h1
      · exact h2 x hx
    · rcases h3 with h3 | ⟨x, hx, h3⟩
      · rw [h3]
        rcases max_choice z |e.2| with h | h
        · left; exact h
        · right; exact ⟨e, List.mem_cons_self, h.symm⟩
      · right; exact ⟨x, List.mem_cons_of_mem _ hx, h3⟩

/-- `M` is the largest modulus of an element, zero if there are none. -/
def LargestEntry (d : List (Index × K)) (M : K) : Prop :=
  (∀ e ∈ d, |e.2| ≤ M) ∧ ((∃ e ∈ d, |e.2| = M) ∨ (d = [] ∧ M = 0))

theorem largest_unique {d : List (Index × K)} {M M' : K} (h : LargestEntry d M) (h' : LargestEntry d M') :
    M = M' := by
  obtain ⟨a, b⟩ := h
  obtain ⟨a', b'⟩ := h'
  rcases b with ⟨e, he, rfl⟩ | ⟨rfl, rfl⟩
  · rcases b' with ⟨e', he', rfl⟩ | ⟨rfl, rfl⟩
    · exact le_antisymm (a' e he) (a e' he')
    · cases he
  · rcases b' with ⟨e', he', rfl⟩ | ⟨-, rfl⟩
    · cases he'
    · rfl

theorem largest_foldl (d : List (Index × K)) :
    LargestEntry d (d.foldl (fun m e => max m |e.2|) 0) := by
  obtain ⟨h1, h2, h3⟩ := foldl_max d 0
  refine ⟨h2, ?_⟩
  rcases h3 with h3 | h3
  · cases d with
    | nil => exact Or.inr ⟨rfl, rfl⟩
    | cons e d =>
      left
      refine ⟨e, List.mem_cons_self, ?_⟩
      have := h2 e List.mem_cons_self
      rw [h3] at this ⊢
      exact le_antisymm this (abs_nonneg _)
  · exact Or.inl h3

/-- C17: of a matrix whose elements are enumerated in order (every map-backed matrix) the threshold
trimmer keeps exactly the diagonal elements and those whose modulus is at least the threshold times
the largest modulus, in their order, with their values, and the size. -/
theorem C17_threshold (th : K) (J : Mat K) (hJ : Increasing J.data) {M : K}
    (hM : LargestEntry J.data M) :
    thresholdTrim th J
      = ⟨J.size, J.data.filter (fun e => e.1.1 = e.1.2 ∨ th * M ≤ |e.2|)⟩ := by
  have hall : (∀ e ∈ J.data, th * M ≤ |e.2|) →
      J = ⟨J.size, J.data.filter (fun e => e.1.1 = e.1.2 ∨ th * M ≤ |e.2|)⟩ := by
    intro h
    obtain ⟨s, d⟩ := J
    congr 1
    symm
    rw [List.filter_eq_self]
    intro e he
    simp [h e he]
  unfold thresholdTrim
  split
  · next h0 =>
    apply hall
    intro e _
    rw [h0, zero_mul]
    exact abs_nonneg _
  · rw [largest_unique (largest_foldl J.data) hM]
    dsimp only
    split
    · next h0 =>
      apply hall
      intro e _
      rw [h0, mul_zero]
      exact abs_nonneg _
    · congr 1
      have := foldl_keep (fun e : Index × K => e.1.1 = e.1.2 ∨ |e.2| ≥ th * M) J.data [] hJ (by simp)
      rw [this, List.nil_append]

/-- C17: trimming twice is trimming once, for every threshold. -/
theorem C17_threshold_twice (th : K) (J : Mat K) (hJ : Increasing J.data) :
    thresholdTrim th (thresholdTrim th J) = thresholdTrim th J := by
  have hM := largest_foldl J.data
  obtain ⟨M, hMe⟩ : ∃ M, J.data.foldl (fun m e => max m |e.2|) 0 = M := ⟨_, rfl⟩
  rw [hMe] at hM
  obtain ⟨J', hJ'⟩ : ∃ J', thresholdTrim th J = J' := ⟨_, rfl⟩
  have hform := C17_threshold th J hJ hM
  rw [hJ'] at hform ⊢
  have hinc : Increasing J'.data := by
    rw [hform]; exact Data.inc_filter hJ _
  have hM' := largest_foldl J'.data
  obtain ⟨M', hMe'⟩ : ∃ M, J'.data.foldl (fun m e => max m |e.2|) 0 = M := ⟨_, rfl⟩
  rw [hMe'] at hM'
  rw [C17_threshold th J' hinc hM']
  obtain ⟨s', d'⟩ := J'
  congr 1
  rw [List.filter_eq_self]
  intro e he
  have hd : d' = J.data.filter (fun e => e.1.1 = e.1.2 ∨ th * M ≤ |e.2|) := by
    rw [Mat.mk.injEq] at hform; exact hform.2
  have hmem := he
  simp only at hmem
  rw [hd, List.mem_filter] at hmem
  have hor : e.1.1 = e.1.2 ∨ th * M ≤ |e.2| := by simpa using hmem.2
  simp only [decide_eq_true_eq]
  rcases hor with h | h
  · exact Or.inl h
  · right
    have hle : M' ≤ M := by
      rcases hM'.2 with ⟨x, hx, hx'⟩ | ⟨hnil, -⟩
      · rw [← hx']
        apply hM.1
        simp only at hx
        rw [hd] at hx
        exact (List.mem_filter.1 hx).1
      · simp only at hnil
        rw [hnil] at he
        cases he
    rcases le_or_gt 0 th with ht | ht
    · exact (mul_le_mul_of_nonneg_left hle ht).trans h
    · have h0 : 0 ≤ M' := (abs_nonneg _).trans (hM'.1 e he)
      exact (mul_nonpos_of_nonpos_of_nonneg ht.le h0).trans (abs_nonneg _)

end

section
variable {K : Type} [Field K]

theorem toInt32_small {a : Int} (h1 : -2147483648 ≤ a) (h2 : a < 2147483648) : toInt32 a = a := by
  unfold toInt32
  rw [Int.emod_eq_of_lt (by omega) (by omega)]
  omega

theorem foldlM_keep (w : Nat) (hw : w < 2147483648) (es acc : List (Index × K)) (h : Increasing es)
    (hin : ∀ e ∈ es, e.1.1 < 2147483648 ∧ e.1.2 < 2147483648)
    (ha : ∀ x ∈ acc, ∀ e ∈ es, ltI x.1 e.1 = true) :
    es.foldlM (fun d e =>
      let k := toInt32 ((e.1.1 : Int) - e.1.2)
      if k = -2147483648 then .error .ub
      else if |k| < toInt32 w then .ok (Data.set d e.1 e.2) else .ok d) acc
    = (.ok (acc ++ es.filter (fun e => |(e.1.1 : Int) - e.1.2| < w)) : Res (List (Index × K))) := by
  induction es generalizing acc with
  | nil => simp [pure, Except.pure]
  | cons e es ih =>
    rw [Sparse.inc_cons] at h
    obtain ⟨hr, hc⟩ := hin e List.mem_cons_self
    rw [List.foldlM_cons]
    dsimp only
    rw [toInt32_small (by omega) (by omega), toInt32_small (a := w) (by omega) (by omega),
      if_neg (by omega)]
    rw [toInt32_small (a := w) (by omega) (by omega)] at ih
    dsimp only at ih
    have hin' := fun x hx => hin x (List.mem_cons_of_mem _ hx)
    by_cases hp : |(e.1.1 : Int) - e.1.2| < w
    · rw [if_pos hp, bind_ok, set_append acc e.1 e.2 (fun x hx => ha x hx e List.mem_cons_self),
        ih _ h.2 hin', List.filter_cons_of_pos (by simpa using hp), List.append_assoc]
      · rfl
      · intro x hx e' he'
        rcases List.mem_append.1 hx with hx | hx
        · exact ha x hx e' (List.mem_cons_of_mem _ he')
        · rw [List.mem_singleton] at hx
          subst hx
          exact h.1 e' he'
    · rw [if_neg hp, bind_ok, ih _ h.2 hin' (fun x hx e' he' => ha x hx e' (List.mem_cons_of_mem _ he')),
        List.filter_cons_of_neg (by simpa using hp)]

/-- C17 (partial: widths and index values below 2^31, see `C17_width_false`): the width trimmer with a
positive width keeps exactly the elements less than `width` off the diagonal. -/
theorem C17_width_partial (w : Nat) (hw0 : 0 < w) (hw : w < 2147483648) (J : Mat K)
    (hJ : Increasing J.data) (hin : ∀ e ∈ J.data, e.1.1 < 2147483648 ∧ e.1.2 < 2147483648) :
    widthTrim w J
      = .ok ⟨J.size, J.data.filter (fun e => |(e.1.1 : Int) - e.1.2| < w)⟩ := by
  unfold widthTrim
  rw [if_neg (by omega), foldlM_keep w hw J.data [] hJ hin (by simp), bind_ok, List.nil_append]

/-- C17: a zero parameter leaves every matrix unchanged, for both trimmers. -/
theorem C17_zero {K : Type} [Field K] [LinearOrder K] (J : Mat K) :
    widthTrim 0 J = .ok J ∧ thresholdTrim 0 J = J :=
  ⟨rfl, by unfold thresholdTrim; rw [if_pos rfl]⟩

/-- C17: trimming to a width twice is trimming once. -/
theorem C17_width_twice (w : Nat) (hw : w < 2147483648) (J J' : Mat K) (hJ : Increasing J.data)
    (hin : ∀ e ∈ J.data, e.1.1 < 2147483648 ∧ e.1.2 < 2147483648) (h : widthTrim w J = .ok J') :
    widthTrim w J' = .ok J' := by
  rcases Nat.eq_zero_or_pos w with rfl | hw0
  · rfl
  · rw [C17_width_partial w hw0 hw J hJ hin] at h
    cases h
    rw [C17_width_partial w hw0 hw _ (Data.inc_filter hJ _)
      (fun e he => hin e (List.mem_filter.1 he).1)]
    simp [List.filter_filter]

/-- C17 is false for widths from 2^31 on: the width becomes negative and every element is dropped,
although none is further from the diagonal than the width. -/
theorem C17_width_false :
    widthTrim 2147483648 (⟨(2, 2), [((0, 0), 1), ((1, 1), 1)]⟩ : Mat ℚ) = .ok ⟨(2, 2), []⟩ ∧
    ∀ i : Nat, i < 2 → |(i : Int) - i| < (2147483648 : Int) := by
  constructor
  · decide +kernel
  · intro i _
    simp

end

/-- Of the matrix [[1, 5], [0.1, 2]] the threshold 1/2 keeps 1 (diagonal), 5 and 2. -/
example : thresholdTrim (1 / 2) (⟨(2, 2), [((0, 0), 1), ((0, 1), 5), ((1, 0), 1 / 10), ((1, 1), 2)]⟩ : Mat ℚ)
    = ⟨(2, 2), [((0, 0), 1), ((0, 1), 5), ((1, 1), 2)]⟩ := by
  rw [C17_threshold (M := 5)]
  · norm_num
  · unfold Increasing; decide
  · refine ⟨?_, Or.inl ⟨((0, 1), 5), by simp, by norm_num⟩⟩
    intro e he
    simp only [List.mem_cons, List.not_mem_nil, or_false] at he
    rcases he with rfl | rfl | rfl | rfl <;> norm_num

/-! ### Rank-one updates -/

section
variable {K : Type} [Field K] [DecidableEq K]

theorem vsub_ok {a b : List K} (h : a.length ≤ b.length) :
    ∃ r, vsub a b = .ok r ∧ r.length = a.length ∧
      ∀ i, i < a.length → r.getD i 0 = a.getD i 0 - b.getD i 0 := by
  unfold vsub
  have := loop_post (lo := 0) (hi := a.length) (s := a)
    (f := fun i r => do
      let x ← at' r i
      let y ← at' b i
      atSet r i (x - y))
    (fun j r => r.length = a.length ∧ (∀ i, i < j → r.getD i 0 = a.getD i 0 - b.getD i 0) ∧
      ∀ i, j ≤ i → r.getD i 0 = a.getD i 0)
    (E := fun _ => False) (Nat.zero_le _) ⟨rfl, fun i h => by omega, fun _ _ => rfl⟩ (by
      intro j r _ hj ⟨h1, h2, h3⟩
      have hjr : j < r.length := by omega
      rw [at_lt hjr, bind_ok, at_lt (by omega), bind_ok]
      unfold atSet
      rw [if_pos hjr]
      refine ⟨by rw [List.length_set, h1], ?_, ?_⟩
      · intro i hi
        rw [getD_set hjr]
        by_cases hij : i = j
        · rw [if_pos hij, h3 j (le_refl _), hij]
        · rw [if_neg hij, h2 i (by omega)]
      · intro i hi
        rw [getD_set hjr, if_neg (by omega), h3 i (by omega)])
  rw [post_false_iff] at this
  obtain ⟨r, h1, h2, h3, -⟩ := this
  exact ⟨r, h1, h2, h3⟩

theorem normSq_eq {v : List K} {n : Nat} (h : v.length = n) :
    normSq v = vecOf v n ⬝ᵥ vecOf v n := by
  have h1 : normSq v = (v.map (fun x => x * x)).sum := by
    have : ∀ z : K, v.foldl (fun s x => s + x * x) z = z + (v.map (fun x => x * x)).sum := by
      clear h
      induction v with
      | nil => simp
      | cons x v ih =>
        intro z
        rw [List.foldl_cons, ih, List.map_cons, List.sum_cons, add_assoc]
    unfold normSq
    rw [this, zero_add]
  subst h
  rw [h1]
  have h2 : v.map (fun x => x * x) = List.ofFn (fun i : Fin v.length => vecOf v v.length i * vecOf v v.length i) := by
    apply List.ext_getElem
    · simp
    · intro i h1 h2
      simp at h1
      simp [vecOf]
  rw [h2, List.sum_ofFn]
  rfl

/-- The dense matrix of a fast matrix -/
abbrev FMat.dense (J : FMat K) (n m : Nat) : Matrix (Fin n) (Fin m) K := Sparse.dense ⟨J.size, J.data⟩ n m

/-- `(df - J dx) / |dx|²` -/
def leftSpec (n : Nat) (J : FMat K) (dx df : List K) : Fin n → K :=
  fun i => (vecOf df n i - (J.dense n n).mulVec (vecOf dx n) i) / (vecOf dx n ⬝ᵥ vecOf dx n)

/-- What the update needs: elements in order and inside the square, vectors of that size. -/
structure UpdateArgs (n : Nat) (J : FMat K) (dx df : List K) : Prop where
  inc : Increasing J.data
  size : J.size = (n, n)
  inside : ∀ e ∈ J.data, e.1.1 < n ∧ e.1.2 < n
  lenx : dx.length = n
  lenf : df.length = n

theorem updateLeft_ok {n : Nat} {J : FMat K} {dx df : List K} (h : UpdateArgs n J dx df)
    (hne : vecOf dx n ⬝ᵥ vecOf dx n ≠ 0) :
    ∃ l, updateLeft J dx df = .ok l ∧ l.length = n ∧ ∀ i : Fin n, l.getD i 0 = leftSpec n J dx df i := by
  obtain ⟨y, hy, hl, hv⟩ := C10_mulVec ⟨J.size, J.data⟩ n n
    ⟨h.inc, by rw [h.size]; exact h.inside⟩ h.size dx h.lenx.ge
  unfold Mat.mulVec at hy
  obtain ⟨r, hr, hrl, hrv⟩ := vsub_ok (a := df) (b := y) (by rw [h.lenf, hl])
  unfold updateLeft
  dsimp only at hy
  rw [hy, bind_ok, hr, bind_ok, normSq_eq h.lenx]
  unfold Res.div
  rw [if_neg hne, bind_ok]
  refine ⟨_, rfl, by rw [List.length_map, hrl, h.lenf], fun i => ?_⟩
  have hi : (i : Nat) < r.length := by rw [hrl, h.lenf]; exact i.2
  rw [List.getD_eq_getElem?_getD, List.getElem?_map, List.getElem?_eq_getElem hi]
  have := hrv i (by rw [h.lenf]; exact i.2)
  rw [List.getD_eq_getElem?_getD, List.getElem?_eq_getElem hi] at this
  simp only [Option.map_some, Option.getD_some] at this ⊢
  rw [this]
  unfold leftSpec
  have e := congrFun hv i
  unfold vecOf at e ⊢
  rw [e, one_div, div_eq_mul_inv]

/-- Matrix with the same stencil and new values -/
theorem addOuter_ok {n : Nat} {left dx : List K} (d : Fast K) (hin : ∀ e ∈ d, e.1.1 < n ∧ e.1.2 < n)
    (hl : left.length = n) (hx : dx.length = n) :
    addOuter left dx d = .ok (d.map (fun e => (e.1, e.2 + left.getD e.1.1 0 * dx.getD e.1.2 0))) := by
  unfold addOuter
  induction d with
  | nil => rfl
  | cons e d ih =>
    obtain ⟨h1, h2⟩ := hin e List.mem_cons_self
    rw [List.mapM_cons, at_lt (by omega), bind_ok, at_lt (by omega), bind_ok, bind_ok,
      ih (fun x hx => hin x (List.mem_cons_of_mem _ hx)), bind_ok]
    rfl

/-- C18: the stencil-preserving update returns whenever `dx` has a nonzero norm; it keeps the positions
of the elements and adds to each of them the element of Broyden's rank-one matrix. -/
theorem C18_fake {n : Nat} {J : FMat K} {dx df : List K} (h : UpdateArgs n J dx df)
    (hne : vecOf dx n ⬝ᵥ vecOf dx n ≠ 0) :
    ∃ J', fakeBroydenUpdate J dx df = .ok J' ∧ J'.size = J.size ∧
      J'.data.map Prod.fst = J.data.map Prod.fst ∧
      ∀ (i j : Fin n) (v : K), ((i.1, j.1), v) ∈ J.data →
        ((i.1, j.1), v + (vecOf df n i - (J.dense n n).mulVec (vecOf dx n) i)
          / (vecOf dx n ⬝ᵥ vecOf dx n) * vecOf dx n j) ∈ J'.data := by
  obtain ⟨l, h1, h2, h3⟩ := updateLeft_ok h hne
  unfold fakeBroydenUpdate
  rw [h1, bind_ok, addOuter_ok J.data h.inside h2 h.lenx, bind_ok]
  refine ⟨_, rfl, rfl, ?_, ?_⟩
  · rw [List.map_map]
    rfl
  · intro i j v hv
    refine List.mem_map.2 ⟨_, hv, ?_⟩
    dsimp only
    rw [h3 i]
    rfl

theorem fake_find {n : Nat} {J J' : FMat K} {dx df : List K} (h : UpdateArgs n J dx df)
    (hne : vecOf dx n ⬝ᵥ vecOf dx n ≠ 0) (hJ' : fakeBroydenUpdate J dx df = .ok J') :
    Increasing J'.data ∧ ∀ i j : Fin n, Data.find J'.data (i, j)
      = (Data.find J.data (i, j)).map (fun v => v + leftSpec n J dx df i * vecOf dx n j) := by
  obtain ⟨J1, g1, -, g3, g4⟩ := C18_fake h hne
  rw [hJ'] at g1
  cases g1
  have hinc : Increasing J'.data := by
    have h0 := h.inc
    unfold Increasing at h0 ⊢
    have e1 : J'.data.Pairwise (fun a b => a.1.1 < b.1.1 ∨ (a.1.1 = b.1.1 ∧ a.1.2 < b.1.2)) ↔
        (J'.data.map Prod.fst).Pairwise (fun a b => a.1 < b.1 ∨ (a.1 = b.1 ∧ a.2 < b.2)) := by
      rw [List.pairwise_map]
    have e2 : J.data.Pairwise (fun a b => a.1.1 < b.1.1 ∨ (a.1.1 = b.1.1 ∧ a.1.2 < b.1.2)) ↔
        (J.data.map Prod.fst).Pairwise (fun a b => a.1 < b.1 ∨ (a.1 = b.1 ∧ a.2 < b.2)) := by
      rw [List.pairwise_map]
    rw [e1, g3, ← e2]
    exact h0
  refine ⟨hinc, fun i j => ?_⟩
  cases hf : Data.find J.data (i, j) with
  | none =>
    rw [Option.map_none, Data.find_none_iff]
    rw [Data.find_none_iff] at hf
    intro e he hk
    have : e.1 ∈ J'.data.map Prod.fst := List.mem_map_of_mem he
    rw [g3] at this
    obtain ⟨e', he', hk'⟩ := List.mem_map.1 this
    exact hf e' he' (hk'.trans hk)
  | some v =>
    rw [Option.map_some, ← Data.mem_iff hinc]
    exact g4 i j v ((Data.mem_iff h.inc).2 hf)

theorem fastAdd_some {d : Fast K} (hd : Increasing d) {i : Index} {v x : K} (h : Data.find d i = some v) :
    ∃ d', fastAdd d i x = .ok d' ∧ d'.map Prod.fst = d.map Prod.fst ∧ Increasing d' ∧
      ∀ j, Data.find d' j = if j = i then some (v + x) else Data.find d j := by
  obtain ⟨p, hp, hpv⟩ := (Fast.search_value hd).1 h
  have hlt := (List.getElem?_eq_some_iff.1 hpv).1
  have hel : d[p] = (i, v) := (List.getElem?_eq_some_iff.1 hpv).2
  unfold fastAdd
  rw [hp]
  dsimp only
  unfold raw
  rw [hpv]
  dsimp only
  rw [bind_ok]
  unfold rawSet
  rw [if_pos hlt]
  have hkeys : (List.set d p (i, v + x)).map Prod.fst = d.map Prod.fst := by
    rw [List.map_set]
    apply List.ext_getElem?
    intro k
    rw [List.getElem?_set]
    by_cases hk : p = k
    · subst hk
      rw [if_pos rfl, if_pos (by simpa using hlt), List.getElem?_map, hpv]
      rfl
    · rw [if_neg hk]
  have hinc : Increasing (List.set d p (i, v + x)) := by
    unfold Increasing at hd ⊢
    have e1 : ∀ l : List (Index × K),
        l.Pairwise (fun a b => a.1.1 < b.1.1 ∨ (a.1.1 = b.1.1 ∧ a.1.2 < b.1.2)) ↔
        (l.map Prod.fst).Pairwise (fun a b => a.1 < b.1 ∨ (a.1 = b.1 ∧ a.2 < b.2)) := by
      intro l; rw [List.pairwise_map]
    rw [e1, hkeys, ← e1]
    exact hd
  refine ⟨_, rfl, hkeys, hinc, fun j => ?_⟩
  have hm : ∀ w, (j, w) ∈ List.set d p (i, v + x) ↔ (if j = i then w = v + x else (j, w) ∈ d) := by
    intro w
    constructor
    · intro hw
      obtain ⟨q, hq, hqv⟩ := List.getElem_of_mem hw
      rw [List.getElem_set] at hqv
      by_cases hpq : p = q
      · rw [if_pos hpq] at hqv
        obtain ⟨e1, e2⟩ := Prod.mk.inj hqv
        rw [if_pos e1.symm, e2]
      · rw [if_neg hpq] at hqv
        rw [List.length_set] at hq
        have hq' : d[q]? = some (j, w) := by rw [List.getElem?_eq_getElem hq, hqv]
        have hji : j ≠ i := by
          rintro rfl
          have := Fast.search_of_mem hd hq'
          rw [hp] at this
          exact hpq (Option.some.inj this)
        rw [if_neg hji]
        exact List.mem_of_getElem? hq'
    · intro hw
      by_cases hji : j = i
      · rw [if_pos hji] at hw
        rw [hw, hji]
        exact List.mem_set hlt _
      · rw [if_neg hji] at hw
        obtain ⟨q, hq, hqv⟩ := List.getElem_of_mem hw
        have hpq : p ≠ q := by
          rintro rfl
          rw [hel] at hqv
          exact hji (Prod.mk.inj hqv).1.symm
        apply List.mem_of_getElem? (i := q)
        rw [List.getElem?_set, if_neg hpq, List.getElem?_eq_getElem hq, hqv]
  by_cases hji : j = i
  · rw [if_pos hji]
    rw [← Data.mem_iff hinc, hm, if_pos hji]
  · rw [if_neg hji]
    apply Option.ext
    intro w
    rw [← Data.mem_iff hinc, hm, if_neg hji, Data.mem_iff hd]

theorem fastAdd_none {d : Fast K} (hd : Increasing d) {i : Index} {x : K} (h : Data.find d i = none) :
    fastAdd d i x = .error (.exc "Element is not found") := by
  unfold fastAdd
  rw [(Fast.search_none hd).2 h]

/-- The double loop of the Broyden update: either every position that has to be changed is stored and
the stored values get their increments, or the exception is thrown. -/
theorem broydenLoop {n : Nat} {left dx : List K} (hl : left.length = n) (hx : dx.length = n)
    {d0 : Fast K} (hd : Increasing d0) :
    Post (loop 0 n (fun i d => loop 0 n (fun j d => do
      let a ← at' left i
      let b ← at' dx j
      if a * b ≠ 0 then fastAdd d (i, j) (a * b) else .ok d) d) d0)
    (fun d => d.map Prod.fst = d0.map Prod.fst ∧ Increasing d ∧
      (∀ i j, i < n → j < n → left.getD i 0 * dx.getD j 0 ≠ 0 → Data.find d0 (i, j) ≠ none) ∧
      ∀ i j, Data.find d (i, j) = if i < n ∧ j < n then
        (Data.find d0 (i, j)).map (fun v => v + left.getD i 0 * dx.getD j 0) else Data.find d0 (i, j))
    (fun e => e = .exc "Element is not found" ∧
      ∃ i j, i < n ∧ j < n ∧ left.getD i 0 * dx.getD j 0 ≠ 0 ∧ Data.find d0 (i, j) = none) := by
  have hmapid : ∀ o : Option K, o.map (fun v => v + 0) = o := by
    intro o; cases o <;> simp
  refine Post.mono (loop_post (lo := 0) (hi := n) (s := d0)
    (fun k d => d.map Prod.fst = d0.map Prod.fst ∧ Increasing d ∧
      (∀ i j, i < k → j < n → left.getD i 0 * dx.getD j 0 ≠ 0 → Data.find d0 (i, j) ≠ none) ∧
      ∀ i j, Data.find d (i, j) = if i < k ∧ j < n then
        (Data.find d0 (i, j)).map (fun v => v + left.getD i 0 * dx.getD j 0) else Data.find d0 (i, j))
    (E := fun e => e = .exc "Element is not found" ∧
      ∃ i j, i < n ∧ j < n ∧ left.getD i 0 * dx.getD j 0 ≠ 0 ∧ Data.find d0 (i, j) = none)
    (Nat.zero_le _) ⟨rfl, hd, fun i j h => by omega, fun i j => by simp⟩ ?_) (fun _ h => h) (fun _ h => h)
  intro k d _ hk ⟨h1, h2, h3, h4⟩
  refine Post.mono (loop_post (lo := 0) (hi := n) (s := d)
    (fun m d' => d'.map Prod.fst = d0.map Prod.fst ∧ Increasing d' ∧
      (∀ i j, (i < k ∧ j < n ∨ i = k ∧ j < m) → left.getD i 0 * dx.getD j 0 ≠ 0 → Data.find d0 (i, j) ≠ none) ∧
      ∀ i j, Data.find d' (i, j) = if (i < k ∧ j < n) ∨ (i = k ∧ j < m) then
        (Data.find d0 (i, j)).map (fun v => v + left.getD i 0 * dx.getD j 0) else Data.find d0 (i, j))
    (E := fun e => e = .exc "Element is not found" ∧
      ∃ i j, i < n ∧ j < n ∧ left.getD i 0 * dx.getD j 0 ≠ 0 ∧ Data.find d0 (i, j) = none)
    (Nat.zero_le _) ⟨h1, h2, ?_, ?_⟩ ?_) ?_ (fun _ h => h)
  · intro i j h
    exact h3 i j (by omega) (by omega)
  · intro i j
    rw [h4 i j]
    exact if_congr (by omega) rfl rfl
  · intro m d' _ hm ⟨g1, g2, g3, g4⟩
    rw [at_lt (by omega), bind_ok, at_lt (by omega), bind_ok]
    have hg4 := g4 k m
    rw [if_neg (by omega)] at hg4
    split
    · next hne =>
      cases hf : Data.find d0 (k, m) with
      | none =>
        rw [fastAdd_none g2 (hg4.trans hf)]
        exact ⟨rfl, k, m, hk, hm, hne, hf⟩
      | some v =>
        obtain ⟨d'', e1, e2, e3, e4⟩ := fastAdd_some g2 (x := left.getD k 0 * dx.getD m 0) (hg4.trans hf)
        rw [e1]
        refine ⟨e2.trans g1, e3, ?_, ?_⟩
        · intro i j hij
          by_cases hkm : i = k ∧ j = m
          · intro _
            rw [hkm.1, hkm.2, hf]
            simp
          · exact g3 i j (by omega)
        · intro i j
          rw [e4 (i, j)]
          by_cases hkm : (i, j) = (k, m)
          · obtain ⟨rfl, rfl⟩ := Prod.mk.inj hkm
            rw [if_pos rfl, if_pos (by omega), hf, Option.map_some]
          · rw [if_neg hkm, g4 i j]
            have : ¬ (i = k ∧ j = m) := fun h => hkm (by rw [h.1, h.2])
            exact if_congr (by omega) rfl rfl
    · next hz =>
      have hz : left.getD k 0 * dx.getD m 0 = 0 := not_not.1 hz
      refine ⟨g1, g2, ?_, ?_⟩
      · intro i j hij
        by_cases hkm : i = k ∧ j = m
        · intro h
          rw [hkm.1, hkm.2] at h
          exact absurd hz h
        · exact g3 i j (by omega)
      · intro i j
        rw [g4 i j]
        by_cases hkm : i = k ∧ j = m
        · obtain ⟨rfl, rfl⟩ := hkm
          rw [if_neg (by omega), if_pos (by omega), hz, hmapid]
        · exact if_congr (by omega) rfl rfl
  · intro d' ⟨g1, g2, g3, g4⟩
    refine ⟨g1, g2, fun i j hi hj => g3 i j (by omega), fun i j => ?_⟩
    rw [g4 i j]
    exact if_congr (by omega) rfl rfl

/-- Every position at which Broyden's rank-one matrix is not zero is stored. -/
def Covers (n : Nat) (J : FMat K) (dx df : List K) : Prop :=
  ∀ i j : Fin n, vecOf df n i - (J.dense n n).mulVec (vecOf dx n) i ≠ 0 → vecOf dx n j ≠ 0 →
    ∃ v, ((i.1, j.1), v) ∈ J.data

theorem left_ne_iff {n : Nat} {J : FMat K} {dx df : List K} (hne : vecOf dx n ⬝ᵥ vecOf dx n ≠ 0)
    (i j : Fin n) : leftSpec n J dx df i * vecOf dx n j ≠ 0 ↔
      (vecOf df n i - (J.dense n n).mulVec (vecOf dx n) i ≠ 0 ∧ vecOf dx n j ≠ 0) := by
  unfold leftSpec
  rw [mul_ne_zero_iff, div_ne_zero_iff]
  exact ⟨fun h => ⟨h.1.1, h.2⟩, fun h => ⟨⟨h.1, hne⟩, h.2⟩⟩

/-- C18: where the Broyden update can work it is the stencil-preserving one, everywhere else it throws:
it needs every position at which the rank-one matrix is not zero. -/
theorem C18_broyden {n : Nat} {J : FMat K} {dx df : List K} (h : UpdateArgs n J dx df)
    (hne : vecOf dx n ⬝ᵥ vecOf dx n ≠ 0) :
    (Covers n J dx df → broydenUpdate n J dx df = fakeBroydenUpdate J dx df) ∧
    (¬ Covers n J dx df → broydenUpdate n J dx df = .error (.exc "Element is not found")) := by
  obtain ⟨l, h1, h2, h3⟩ := updateLeft_ok h hne
  have hpost := broydenLoop h2 h.lenx h.inc
  obtain ⟨J', hJ', hs, hkeys, -⟩ := C18_fake h hne
  obtain ⟨hinc', hfind'⟩ := fake_find h hne hJ'
  have hcov : Covers n J dx df ↔
      ∀ i j, i < n → j < n → l.getD i 0 * dx.getD j 0 ≠ 0 → Data.find J.data (i, j) ≠ none := by
    constructor
    · intro hc i j hi hj hij
      have hl := h3 ⟨i, hi⟩
      dsimp only at hl
      rw [hl] at hij
      obtain ⟨e1, e2⟩ := (left_ne_iff (j := ⟨j, hj⟩) hne _).1 hij
      obtain ⟨v, hv⟩ := hc ⟨i, hi⟩ ⟨j, hj⟩ e1 e2
      rw [(Data.mem_iff h.inc).1 hv]
      simp
    · intro hc i j e1 e2
      have hl := h3 i
      have := hc i j i.2 j.2 (by rw [hl]; exact (left_ne_iff hne _ _).2 ⟨e1, e2⟩)
      cases hf : Data.find J.data (i.1, j.1) with
      | none => exact absurd hf this
      | some v => exact ⟨v, (Data.mem_iff h.inc).2 hf⟩
  unfold broydenUpdate
  rw [h1, bind_ok]
  cases hloop : loop 0 n (fun i d => loop 0 n (fun j d => do
      let a ← at' l i
      let b ← at' dx j
      if a * b ≠ 0 then fastAdd d (i, j) (a * b) else .ok d) d) J.data with
  | error e =>
    rw [hloop] at hpost
    obtain ⟨rfl, i, j, hi, hj, hij, hf⟩ := hpost
    refine ⟨fun hc => absurd hf (hcov.1 hc i j hi hj hij), fun _ => ?_⟩
    rw [bind_error]
  | ok d =>
    rw [hloop] at hpost
    obtain ⟨p1, p2, p3, p4⟩ := hpost
    refine ⟨fun _ => ?_, fun hc => absurd (hcov.2 p3) hc⟩
    rw [hJ', bind_ok]
    congr 1
    obtain ⟨s', d'⟩ := J'
    dsimp only at hs hkeys hinc' hfind'
    rw [hs]
    congr 1
    refine Data.ext_of_find p2 hinc' (fun ij => ?_)
    obtain ⟨i, j⟩ := ij
    rw [p4 i j]
    by_cases hij : i < n ∧ j < n
    · rw [if_pos hij]
      have e1 := hfind' ⟨i, hij.1⟩ ⟨j, hij.2⟩
      have e2 := h3 ⟨i, hij.1⟩
      dsimp only at e1 e2
      rw [e1, e2]
      rfl
    · rw [if_neg hij]
      have hout : ∀ e ∈ J.data, e.1 ≠ (i, j) := by
        rintro e he hk
        have := h.inside e he
        rw [hk] at this
        exact hij this
      rw [Data.find_none_iff.2 hout]
      symm
      rw [Data.find_none_iff]
      intro e he hk
      have hm : e.1 ∈ d'.map Prod.fst := List.mem_map_of_mem he
      rw [hkeys] at hm
      obtain ⟨e', he', hk'⟩ := List.mem_map.1 hm
      exact hout e' he' (hk'.trans hk)

/-- The dense matrix after the stencil-preserving update -/
theorem fake_dense {n : Nat} {J J' : FMat K} {dx df : List K} (h : UpdateArgs n J dx df)
    (hne : vecOf dx n ⬝ᵥ vecOf dx n ≠ 0) (hJ' : fakeBroydenUpdate J dx df = .ok J') (i j : Fin n) :
    J'.dense n n i j = if Data.find J.data (i.1, j.1) = none then 0
      else J.dense n n i j + leftSpec n J dx df i * vecOf dx n j := by
  obtain ⟨-, hfind⟩ := fake_find h hne hJ'
  unfold FMat.dense Sparse.dense
  dsimp only
  rw [Data.get_eq, Data.get_eq, hfind i j]
  cases Data.find J.data (i.1, j.1) <;> simp

/-- C18: a row of the stencil-preserving update meets the secant equation when all columns with a
nonzero component of `dx` are stored in it. -/
theorem C18_fake_row {n : Nat} {J J' : FMat K} {dx df : List K} (h : UpdateArgs n J dx df)
    (hne : vecOf dx n ⬝ᵥ vecOf dx n ≠ 0) (hJ' : fakeBroydenUpdate J dx df = .ok J') (i : Fin n)
    (hrow : ∀ j : Fin n, vecOf dx n j ≠ 0 → ∃ v, ((i.1, j.1), v) ∈ J.data) :
    (J'.dense n n).mulVec (vecOf dx n) i = vecOf df n i := by
  have h1 : (J'.dense n n).mulVec (vecOf dx n) i
      = ∑ j, (J.dense n n i j + leftSpec n J dx df i * vecOf dx n j) * vecOf dx n j := by
    unfold Matrix.mulVec dotProduct
    apply Finset.sum_congr rfl
    intro j _
    by_cases hj : vecOf dx n j = 0
    · rw [hj, mul_zero, mul_zero]
    · obtain ⟨v, hv⟩ := hrow j hj
      have := fake_dense h hne hJ' i j
      rw [if_neg (by rw [(Data.mem_iff h.inc).1 hv]; simp)] at this
      beta_reduce
      rw [← this]
  rw [h1]
  simp only [add_mul, Finset.sum_add_distrib, mul_assoc]
  rw [← Finset.mul_sum]
  have h2 : ∑ j, vecOf dx n j * vecOf dx n j = vecOf dx n ⬝ᵥ vecOf dx n := rfl
  have h3 : ∑ j, J.dense n n i j * vecOf dx n j = (J.dense n n).mulVec (vecOf dx n) i := rfl
  rw [h2, h3]
  unfold leftSpec
  rw [div_mul_cancel₀ _ hne, add_sub_cancel]

/-- C18 (partial: the update needs the stencil to contain every position at which the rank-one matrix is
not zero, see `C18_false`): the new Jacobian takes `dx` to `df` and acts as the old one on every vector
orthogonal to `dx`. -/
theorem C18_secant_partial {n : Nat} {J : FMat K} {dx df : List K} (h : UpdateArgs n J dx df)
    (hne : vecOf dx n ⬝ᵥ vecOf dx n ≠ 0) (hc : Covers n J dx df) :
    ∃ J', broydenUpdate n J dx df = .ok J' ∧
      (J'.dense n n).mulVec (vecOf dx n) = vecOf df n ∧
      ∀ v : Fin n → K, v ⬝ᵥ vecOf dx n = 0 → (J'.dense n n).mulVec v = (J.dense n n).mulVec v := by
  obtain ⟨J', hJ', -, -, -⟩ := C18_fake h hne
  have hdense : ∀ i j, J'.dense n n i j = J.dense n n i j + leftSpec n J dx df i * vecOf dx n j := by
    intro i j
    rw [fake_dense h hne hJ' i j]
    split
    · next hf =>
      have h0 : leftSpec n J dx df i * vecOf dx n j = 0 := by
        by_contra hnz
        obtain ⟨e1, e2⟩ := (left_ne_iff hne _ _).1 hnz
        obtain ⟨v, hv⟩ := hc i j e1 e2
        rw [(Data.mem_iff h.inc).1 hv] at hf
        cases hf
      rw [h0, add_zero]
      unfold FMat.dense Sparse.dense
      dsimp only
      rw [Data.get_eq, hf]
      rfl
    · rfl
  refine ⟨J', by rw [(C18_broyden h hne).1 hc, hJ'], ?_, ?_⟩
  · funext i
    unfold Matrix.mulVec dotProduct
    simp only [hdense, add_mul, Finset.sum_add_distrib, mul_assoc]
    rw [← Finset.mul_sum]
    have h2 : ∑ j, vecOf dx n j * vecOf dx n j = vecOf dx n ⬝ᵥ vecOf dx n := rfl
    have h3 : ∑ j, J.dense n n i j * vecOf dx n j = (J.dense n n).mulVec (vecOf dx n) i := rfl
    rw [h2, h3]
    unfold leftSpec
    rw [div_mul_cancel₀ _ hne, add_sub_cancel]
  · intro v hv
    funext i
    unfold Matrix.mulVec dotProduct
    simp only [hdense, add_mul, Finset.sum_add_distrib, mul_assoc]
    rw [← Finset.mul_sum]
    have : ∑ j, vecOf dx n j * v j = 0 := by
      rw [← hv]
      exact Finset.sum_congr rfl (fun j _ => mul_comm _ _)
    rw [this, mul_zero, add_zero]

end

/-- C18 is false: for a Jacobian stored with a diagonal stencil the update throws, although `dx` is not
zero. -/
theorem C18_false :
    broydenUpdate 2 (⟨(2, 2), [((0, 0), 1), ((1, 1), 1)]⟩ : FMat ℚ) [1, 1] [2, 1]
      = .error (.exc "Element is not found") := by
  refine (C18_broyden (n := 2) (J := ⟨(2, 2), [((0, 0), 1), ((1, 1), 1)]⟩) (dx := [1, 1]) (df := [2, 1])
    ⟨by unfold Increasing; decide, rfl, by decide, rfl, rfl⟩ ?_).2 ?_
  · decide +kernel
  · intro h
    obtain ⟨v, hv⟩ := h 0 1 (by decide +kernel) (by decide +kernel)
    simp at hv

/-- C18: the stencil-preserving update does not meet the secant equation in general: with the same data
the first component of the new Jacobian applied to `dx` is 3/2 instead of 2. -/
theorem C18_fake_secant_false :
    ∃ J', fakeBroydenUpdate (⟨(2, 2), [((0, 0), 1), ((1, 1), 1)]⟩ : FMat ℚ) [1, 1] [2, 1] = .ok J' ∧
      (J'.dense 2 2).mulVec (vecOf [1, 1] 2) 0 = 3 / 2 ∧ vecOf ([2, 1] : List ℚ) 2 0 = 2 := by
  refine ⟨⟨(2, 2), [((0, 0), 3 / 2), ((1, 1), 1)]⟩, ?_, ?_, rfl⟩
  · decide +kernel
  · decide +kernel

/-- A full stencil: the hypotheses of the secant theorem hold. -/
example : UpdateArgs 2 (⟨(2, 2), [((0, 0), 1), ((0, 1), 2), ((1, 0), 0), ((1, 1), 3)]⟩ : FMat ℚ) [1, -2] [5, 7]
    ∧ vecOf ([1, -2] : List ℚ) 2 ⬝ᵥ vecOf [1, -2] 2 ≠ 0
    ∧ Covers 2 (⟨(2, 2), [((0, 0), 1), ((0, 1), 2), ((1, 0), 0), ((1, 1), 3)]⟩ : FMat ℚ) [1, -2] [5, 7] := by
  refine ⟨⟨by unfold Increasing; decide, rfl, by decide, rfl, rfl⟩, by decide +kernel, ?_⟩
  intro i j _ _
  fin_cases i <;> fin_cases j <;> exact ⟨_, by simp; rfl⟩

end Verif.Alg
