import Verif.Alg.MapModel
import Verif.Vec.Lemmas
import Mathlib.Data.List.Dedup
import Mathlib.Data.List.Perm.Basic
import Mathlib.Tactic.FieldSimp

/-! # Lemmas on orderings and index sets -/

namespace Verif.Alg

open Verif.Res Verif.Vec

set_option linter.unusedSectionVars false

section
variable {K : Type} [Field K] [DecidableEq K]

theorem loopFrom_congr {α : Type} {f g : Nat → α → Res α} (n lo : Nat) (s : α)
    (h : ∀ i s, lo ≤ i → i < lo + n → f i s = g i s) : loopFrom f n lo s = loopFrom g n lo s := by
  induction n generalizing lo s with
  | zero => rfl
  | succ n ih =>
    unfold loopFrom
    rw [h lo s (Nat.le_refl _) (by omega)]
    congr 1
    funext t
    exact ih (lo + 1) t (fun i s h1 h2 => h i s (by omega) (by omega))

/-- Loops with equal bodies -/
theorem loop_congr {α : Type} {lo hi : Nat} {f g : Nat → α → Res α} {s : α}
    (h : ∀ i s, lo ≤ i → i < hi → f i s = g i s) : loop lo hi f s = loop lo hi g s :=
  loopFrom_congr (hi - lo) lo s (fun i s h1 h2 => h i s h1 (by omega))

/-- A loop that fills a vector element by element -/
theorem loop_fill {n : Nat} {body : Nat → List K → Res (List K)} (f : Nat → K) (init : List K)
    (hlen : init.length = n)
    (hb : ∀ i dst, i < n → dst.length = n → body i dst = .ok (dst.set i (f i))) :
    loop 0 n body init = .ok ((List.range n).map f) := by
  have := loop_post (lo := 0) (hi := n) (s := init) (f := body)
    (fun j dst => dst.length = n ∧ ∀ k, k < j → dst.getD k 0 = f k) (E := fun _ => False)
    (Nat.zero_le _) ⟨hlen, fun k hk => absurd hk (Nat.not_lt_zero _)⟩ (by
      intro j dst _ hj ⟨h1, h2⟩
      rw [hb j dst hj h1]
      refine ⟨by simp [h1], fun k hk => ?_⟩
      rw [getD_set (by omega)]
      split
      · next h => rw [h]
      · exact h2 k (by omega))
  rw [post_false_iff] at this
  obtain ⟨r, hr, h1, h2⟩ := this
  rw [hr]
  congr 1
  apply ext_getD (by simp [h1])
  intro i hi
  have hi' : i < n := by simpa using hi
  rw [h2 i hi']
  simp [List.getD_eq_getElem?_getD, hi']

theorem map_getD_range {x : List K} {n : Nat} (h : x.length = n) :
    (List.range n).map (x.getD · 0) = x := by
  subst h
  apply ext_getD (by simp)
  intro i hi
  simp [List.getD_eq_getElem?_getD, hi]

theorem getD_map_range {n i : Nat} {f : Nat → K} (h : i < n) :
    ((List.range n).map f).getD i 0 = f i := by
  simp [List.getD_eq_getElem?_getD, h]

theorem length_resize (l : List K) (n : Nat) : (Vec.resize l n).length = n := by
  simp [Vec.resize]

theorem order_ok {x : List K} {ord : List Nat} (h : ∀ k ∈ ord, k < x.length) :
    order x ord = .ok ((List.range ord.length).map (fun i => x.getD (ord.getD i 0) 0)) := by
  unfold order
  refine loop_fill (fun i => x.getD (ord.getD i 0) 0) _ (by simp) (fun i dst hi hd => ?_)
  have hk : ord.getD i 0 ∈ ord := by
    simp [List.getD_eq_getElem?_getD, List.getElem?_eq_getElem hi]
  have : raw ord i = .ok (ord.getD i 0) := by
    simp [raw, List.getElem?_eq_getElem hi, List.getD_eq_getElem?_getD]
  rw [this, bind_ok, at_lt (h _ hk), bind_ok]
  unfold atSet
  rw [if_pos (by omega)]

/-- Permutations of the indices below `n` -/
structure IsPerm (n : Nat) (ord : List Nat) : Prop where
  length : ord.length = n
  lt : ∀ i, i < n → ord.getD i 0 < n
  inj : ∀ i j, i < n → j < n → ord.getD i 0 = ord.getD j 0 → i = j
  surj : ∀ k, k < n → ∃ i, i < n ∧ ord.getD i 0 = k

theorem isPerm_of_perm {n : Nat} {ord : List Nat} (h : ord.Perm (List.range n)) : IsPerm n ord := by
  have hl : ord.length = n := by simpa using h.length_eq
  have hnd : ord.Nodup := h.nodup_iff.2 List.nodup_range
  have hget : ∀ i (hi : i < ord.length), ord.getD i 0 = ord[i] := by
    intro i hi
    simp [List.getD_eq_getElem?_getD, List.getElem?_eq_getElem hi]
  refine ⟨hl, ?_, ?_, ?_⟩
  · intro i hi
    rw [hget i (by omega)]
    have : ord[i] ∈ List.range n := h.subset (List.getElem_mem _)
    simpa using this
  · intro i j hi hj he
    rw [hget i (by omega), hget j (by omega)] at he
    exact (List.Nodup.getElem_inj_iff hnd).1 he
  · intro k hk
    have : k ∈ ord := h.symm.subset (by simpa using hk)
    obtain ⟨i, hi, he⟩ := List.getElem_of_mem this
    exact ⟨i, by omega, by rw [hget i hi, he]⟩

theorem unorder_ok {n : Nat} {ord : List Nat} (hp : IsPerm n ord) {x : List K} (hx : x.length = n)
    (dst : List K) : ∃ r, unorder dst x ord = .ok r ∧ r.length = n ∧
      ∀ i, i < n → r.getD (ord.getD i 0) 0 = x.getD i 0 := by
  unfold unorder
  have hl := hp.length
  rw [hl]
  have := loop_post (lo := 0) (hi := n) (s := Vec.resize dst n)
    (f := fun i dst => do
      let k ← raw ord i
      let v ← at' x i
      atSet dst k v)
    (fun j r => r.length = n ∧ ∀ k, k < j → r.getD (ord.getD k 0) 0 = x.getD k 0)
    (E := fun _ => False) (Nat.zero_le _)
    ⟨length_resize _ _, fun k hk => absurd hk (Nat.not_lt_zero _)⟩ (by
      intro j r _ hj ⟨h1, h2⟩
      have hr : raw ord j = .ok (ord.getD j 0) := by
        simp [raw, List.getElem?_eq_getElem (show j < ord.length by omega),
          List.getD_eq_getElem?_getD]
      rw [hr, bind_ok, at_lt (by omega), bind_ok]
      unfold atSet
      have hlt := hp.lt j hj
      rw [if_pos (by omega)]
      refine ⟨by simp [h1], fun k hk => ?_⟩
      rw [getD_set (by omega)]
      by_cases hkj : k = j
      · subst hkj
        rw [if_pos rfl]
      · rw [if_neg (fun he => hkj (hp.inj k j (by omega) hj he))]
        exact h2 k (by omega))
  rw [post_false_iff] at this
  exact this

/-! ### Index sets -/

theorem unique_cons (a : Nat) (l : List Nat) : ∃ r, unique (a :: l) = a :: r := by
  induction l generalizing a with
  | nil => exact ⟨[], rfl⟩
  | cons b l ih =>
    unfold unique
    split
    · next h => rw [h]; exact ih b
    · exact ⟨_, rfl⟩

theorem mem_unique {x : Nat} (l : List Nat) : x ∈ unique l ↔ x ∈ l := by
  fun_induction unique l with
  | case1 => simp
  | case2 => simp
  | case3 a l ih => rw [ih]; simp
  | case4 a b l h ih =>
    rw [List.mem_cons, ih, List.mem_cons (a := x) (b := a)]

theorem unique_sorted (l : List Nat) (h : l.Pairwise (· ≤ ·)) : (unique l).Pairwise (· < ·) := by
  fun_induction unique l with
  | case1 => exact List.Pairwise.nil
  | case2 => exact List.pairwise_singleton _ _
  | case3 a l ih => exact ih (List.pairwise_cons.1 h).2
  | case4 a b l hab ih =>
    obtain ⟨h1, h2⟩ := List.pairwise_cons.1 h
    refine List.pairwise_cons.2 ⟨?_, ih h2⟩
    intro x hx
    rw [mem_unique] at hx
    have hle := h1 x hx
    have hb := h1 b (List.mem_cons_self)
    rcases List.mem_cons.1 hx with rfl | hx'
    · omega
    · have := (List.pairwise_cons.1 h2).1 x hx'
      omega

theorem normalizedIndices_spec (l : List Nat) :
    (normalizedIndices l).Pairwise (· < ·) ∧ ∀ x, x ∈ normalizedIndices l ↔ x ∈ l := by
  unfold normalizedIndices
  refine ⟨unique_sorted _ (List.pairwise_insertionSort _ _), fun x => ?_⟩
  rw [mem_unique]
  exact (List.perm_insertionSort _ _).mem_iff

theorem normalizedIndices_length (l : List Nat) : (normalizedIndices l).length = l.dedup.length := by
  obtain ⟨h1, h2⟩ := normalizedIndices_spec l
  have hnd : (normalizedIndices l).Nodup := h1.imp (fun h => Nat.ne_of_lt h)
  have : (normalizedIndices l).Perm l.dedup :=
    (List.perm_ext_iff_of_nodup hnd (List.nodup_dedup l)).2 (fun a => by rw [h2, List.mem_dedup])
  exact this.length_eq

/-- Enabled indices below `n` -/
def idx (dis : List Nat) (n : Nat) : List Nat := (List.range n).filter (fun i => decide (i ∉ dis))

/-- The components of `x` that are not disabled -/
def enabled (dis : List Nat) (x : List K) : List K := (idx dis x.length).map (x.getD · 0)

theorem idx_succ (dis : List Nat) (n : Nat) :
    idx dis (n + 1) = if n ∈ dis then idx dis n else idx dis n ++ [n] := by
  unfold idx
  rw [List.range_succ, List.filter_append]
  by_cases h : n ∈ dis
  · simp [h]
  · simp [h]

theorem mem_idx {dis : List Nat} {n k : Nat} : k ∈ idx dis n ↔ k < n ∧ k ∉ dis := by
  simp [idx]

theorem length_idx {dis : List Nat} (hs : dis.Nodup) {n : Nat} (hlt : ∀ d ∈ dis, d < n) :
    (idx dis n).length + dis.length = n := by
  have h1 : ((List.range n).filter (fun i => decide (i ∈ dis))).Perm dis := by
    refine (List.perm_ext_iff_of_nodup (List.nodup_range.filter _) hs).2 (fun a => ?_)
    simp only [List.mem_filter, List.mem_range, decide_eq_true_eq]
    exact ⟨fun h => h.2, fun h => ⟨hlt a h, h⟩⟩
  have h2 := List.length_eq_length_filter_add (l := List.range n) (fun i => decide (i ∈ dis))
  rw [List.length_range, h1.length_eq] at h2
  have h3 : idx dis n = (List.range n).filter (fun i => !decide (i ∈ dis)) := by
    unfold idx
    congr 1
    funext i
    simp
  rw [h3]
  omega

/-- Between `a` and `b` everything is disabled -/
theorem idx_skip {dis : List Nat} {a b : Nat} (hab : a ≤ b) (h : ∀ k, a ≤ k → k < b → k ∈ dis) :
    idx dis b = idx dis a := by
  induction b with
  | zero => have : a = 0 := by omega
            rw [this]
  | succ b ih =>
    rcases Nat.eq_or_lt_of_le hab with rfl | hlt
    · rfl
    · rw [idx_succ, if_pos (h b (by omega) (by omega))]
      exact ih (by omega) (fun k h1 h2 => h k h1 (by omega))

theorem skip_spec (is : Nat) (ds : List Nat) (hs : ds.Pairwise (· < ·)) :
    is ≤ (skip is ds).1 ∧ (∀ k, is ≤ k → k < (skip is ds).1 → k ∈ ds) ∧ (skip is ds).1 ∉ ds ∧
    (skip is ds).2.Pairwise (· < ·) ∧ (∀ d ∈ (skip is ds).2, d ∈ ds) ∧
    (∀ d ∈ ds, (skip is ds).1 ≤ d → d ∈ (skip is ds).2) := by
  induction ds generalizing is with
  | nil =>
    refine ⟨Nat.le_refl _, fun k h1 h2 => ?_, by simp, List.Pairwise.nil, by simp [skip], by simp⟩
    simp only [skip] at h2
    omega
  | cons d ds ih =>
    obtain ⟨hd, hs'⟩ := List.pairwise_cons.1 hs
    unfold skip
    by_cases h1 : d < is
    · rw [if_pos h1]
      obtain ⟨a1, a2, a3, a4, a5, a6⟩ := ih is hs'
      refine ⟨a1, fun k x y => List.mem_cons_of_mem _ (a2 k x y), ?_, a4,
        fun e he => List.mem_cons_of_mem _ (a5 e he), ?_⟩
      · intro hm
        rcases List.mem_cons.1 hm with h | h
        · omega
        · exact a3 h
      · intro e he hle
        rcases List.mem_cons.1 he with h | h
        · omega
        · exact a6 e h hle
    · rw [if_neg h1]
      by_cases h2 : d = is
      · rw [if_pos h2]
        obtain ⟨a1, a2, a3, a4, a5, a6⟩ := ih (is + 1) hs'
        refine ⟨by omega, ?_, ?_, a4, fun e he => List.mem_cons_of_mem _ (a5 e he), ?_⟩
        · intro k x y
          by_cases hk : k = is
          · rw [hk, h2]; exact List.mem_cons_self
          · exact List.mem_cons_of_mem _ (a2 k (by omega) y)
        · intro hm
          rcases List.mem_cons.1 hm with h | h
          · omega
          · exact a3 h
        · intro e he hle
          rcases List.mem_cons.1 he with h | h
          · omega
          · exact a6 e h hle
      · rw [if_neg h2]
        refine ⟨Nat.le_refl _, fun k x y => ?_, ?_, hs, fun e he => he, fun e he _ => he⟩
        · dsimp only at y
          omega
        · intro hm
          rcases List.mem_cons.1 hm with h | h
          · dsimp only at h
            omega
          · have := hd _ h
            dsimp only at this
            omega

theorem enabled_nil (x : List K) : enabled [] x = x := by
  unfold enabled idx
  rw [List.filter_eq_self.2 (by simp)]
  exact map_getD_range rfl

/-- `reduce` drops the disabled components. -/
theorem reduce_ok {x : List K} {dis : List Nat} (hs : dis.Pairwise (· < ·))
    (hlt : ∀ d ∈ dis, d < x.length) : reduce x dis = .ok (enabled dis x) := by
  unfold reduce
  by_cases he : dis = []
  · subst he
    rw [enabled_nil]
    rfl
  have hnd : dis.Nodup := hs.imp (fun h => Nat.ne_of_lt h)
  have hcount := length_idx hnd hlt
  rw [if_neg (by simpa using he), if_neg (by omega)]
  have := loop_post (lo := 0) (hi := x.length - dis.length)
    (s := ((0, dis, List.replicate (x.length - dis.length) 0) : Nat × List Nat × List K))
    (f := fun i st => do
        let (is, ds) := skip st.1 st.2.1
        let v ← at' x is
        let dst ← atSet st.2.2 i v
        .ok (is + 1, ds, dst))
    (fun j st => st.1 ≤ x.length ∧ st.2.1.Pairwise (· < ·) ∧ (∀ d ∈ st.2.1, d ∈ dis) ∧
      (∀ d ∈ dis, st.1 ≤ d → d ∈ st.2.1) ∧ (idx dis st.1).length = j ∧
      st.2.2.length = x.length - dis.length ∧
      ∀ k, k < j → st.2.2.getD k 0 = x.getD ((idx dis st.1).getD k 0) 0)
    (E := fun _ => False) (Nat.zero_le _)
    ⟨Nat.zero_le _, hs, fun _ h => h, fun _ h _ => h, rfl, by simp,
      fun k hk => absurd hk (Nat.not_lt_zero _)⟩ (by
      intro j st _ hj ⟨b1, b2, b3, b4, b5, b6, b7⟩
      obtain ⟨a1, a2, a3, a4, a5, a6⟩ := skip_spec st.1 st.2.1 b2
      obtain ⟨sk, hsk⟩ : ∃ sk, skip st.1 st.2.1 = sk := ⟨_, rfl⟩
      rw [hsk] at a1 a2 a3 a4 a5 a6 ⊢
      obtain ⟨is, ds⟩ := sk
      dsimp only at a1 a2 a3 a4 a5 a6
      have hidx : idx dis is = idx dis st.1 := idx_skip a1 (fun k h1 h2 => b3 _ (a2 k h1 h2))
      have hisd : is ∉ dis := fun h => a3 (b4 is h a1)
      have hislt : is < x.length := by
        by_contra hge
        have h1 : idx dis x.length = idx dis st.1 := by
          apply idx_skip b1
          intro k h1 h2
          exact b3 _ (a2 k h1 (by omega))
        rw [h1, b5] at hcount
        omega
      dsimp only
      rw [at_lt hislt, bind_ok]
      unfold atSet
      rw [if_pos (by omega), bind_ok]
      have hs1 : idx dis (is + 1) = idx dis is ++ [is] := by rw [idx_succ, if_neg hisd]
      refine ⟨by dsimp only; omega, a4, fun d h => b3 d (a5 d h), ?_, ?_, ?_, ?_⟩
      · intro d hd hle
        dsimp only at hle
        exact a6 d (b4 d hd (by omega)) (by omega)
      · dsimp only
        rw [hs1, hidx, List.length_append, b5]
        rfl
      · simp [b6]
      · intro k hk
        dsimp only
        rw [getD_set (by omega), hs1, hidx]
        by_cases hkj : k = j
        · rw [if_pos hkj]
          congr 1
          rw [List.getD_eq_getElem?_getD, List.getElem?_append_right (by omega), hkj, b5]
          simp
        · rw [if_neg hkj, b7 k (by omega)]
          congr 1
          rw [List.getD_eq_getElem?_getD, List.getD_eq_getElem?_getD,
            List.getElem?_append_left (by omega)])
  rw [post_false_iff] at this
  obtain ⟨r, hr, c1, c2, c3, c4, c5, c6, c7⟩ := this
  rw [hr, bind_ok]
  congr 1
  have hfull : idx dis x.length = idx dis r.1 := by
    have hpre : ∃ l, idx dis x.length = idx dis r.1 ++ l := by
      obtain ⟨m, hm⟩ := Nat.exists_eq_add_of_le c1
      rw [hm]
      clear hm
      induction m with
      | zero => exact ⟨[], by simp⟩
      | succ m ih =>
        obtain ⟨l, hl⟩ := ih
        rw [← Nat.add_assoc, idx_succ]
        split
        · exact ⟨l, hl⟩
        · exact ⟨l ++ [r.1 + m], by rw [hl, List.append_assoc]⟩
    obtain ⟨l, hl⟩ := hpre
    have : l.length = 0 := by
      have := congrArg List.length hl
      rw [List.length_append] at this
      omega
    rw [List.length_eq_zero_iff.1 this] at hl
    simpa using hl
  unfold enabled
  rw [hfull]
  apply ext_getD
  · rw [c6, List.length_map, c5]
  · intro i hi
    rw [List.length_map, c5] at hi
    rw [c7 i hi]
    have hii : i < (idx dis r.1).length := by omega
    simp [List.getD_eq_getElem?_getD, List.getElem?_eq_getElem hii]

/-- Position of an enabled index among the enabled ones -/
theorem rank_idx (dis : List Nat) (n j : Nat) (hj : j < (idx dis n).length) :
    (idx dis ((idx dis n).getD j 0)).length = j := by
  induction n with
  | zero => simp [idx] at hj
  | succ n ih =>
    rw [idx_succ] at hj ⊢
    by_cases h : n ∈ dis
    · rw [if_pos h] at hj ⊢
      exact ih hj
    · rw [if_neg h] at hj ⊢
      rw [List.length_append, List.length_singleton] at hj
      by_cases h2 : j < (idx dis n).length
      · rw [List.getD_eq_getElem?_getD, List.getElem?_append_left h2, ← List.getD_eq_getElem?_getD]
        exact ih h2
      · have : j = (idx dis n).length := by omega
        rw [List.getD_eq_getElem?_getD, List.getElem?_append_right (by omega), this]
        simp

theorem idx_length_lt {dis : List Nat} {k n : Nat} (hk : k < n) (hd : k ∉ dis) :
    (idx dis k).length < (idx dis n).length := by
  have h : idx dis (k + 1) = idx dis k ++ [k] := by rw [idx_succ, if_neg hd]
  have hmono : ∀ m, (idx dis (k + 1)).length ≤ (idx dis (k + 1 + m)).length := by
    intro m
    induction m with
    | zero => exact Nat.le_refl _
    | succ m ih =>
      rw [← Nat.add_assoc, idx_succ dis (k + 1 + m)]
      split
      · exact ih
      · rw [List.length_append]; omega
  obtain ⟨m, rfl⟩ := Nat.exists_eq_add_of_le (show k + 1 ≤ n from hk)
  have := hmono m
  rw [h, List.length_append, List.length_singleton] at this
  omega

theorem mem_dropWhile_lt {ds : List Nat} (hs : ds.Pairwise (· < ·)) (is : Nat) :
    ∀ d, d ∈ ds.dropWhile (· < is) ↔ d ∈ ds ∧ is ≤ d := by
  intro d
  induction ds with
  | nil => simp
  | cons a l ih =>
    obtain ⟨h1, h2⟩ := List.pairwise_cons.1 hs
    rw [List.dropWhile_cons]
    by_cases ha : a < is
    · rw [if_pos (by simpa using ha), ih h2, List.mem_cons]
      constructor
      · rintro ⟨x, y⟩; exact ⟨Or.inr x, y⟩
      · rintro ⟨x | x, y⟩
        · omega
        · exact ⟨x, y⟩
    · rw [if_neg (by simpa using ha)]
      constructor
      · intro hd
        refine ⟨hd, ?_⟩
        rcases List.mem_cons.1 hd with rfl | h
        · omega
        · have := h1 d h
          omega
      · exact fun h => h.1

theorem head_dropWhile {ds : List Nat} (hs : ds.Pairwise (· < ·)) (is : Nat) :
    (ds.dropWhile (· < is)).head? = some is ↔ is ∈ ds := by
  have hm := mem_dropWhile_lt hs is
  have hp : (ds.dropWhile (· < is)).Pairwise (· < ·) := hs.sublist (List.dropWhile_sublist _)
  cases hd : ds.dropWhile (· < is) with
  | nil =>
    rw [hd] at hm
    constructor
    · intro h; cases h
    · intro h
      have := (hm is).2 ⟨h, Nat.le_refl _⟩
      cases this
  | cons a l =>
    rw [hd] at hm hp
    constructor
    · intro h
      have : a = is := by simpa using h
      exact this ▸ ((hm a).1 List.mem_cons_self).1
    · intro h
      have h1 := (hm is).2 ⟨h, Nat.le_refl _⟩
      have h2 := ((hm a).1 List.mem_cons_self).2
      rcases List.mem_cons.1 h1 with rfl | h3
      · rfl
      · have := (List.pairwise_cons.1 hp).1 is h3
        omega

/-- `widenInput` puts the given components and the frozen ones together. -/
theorem widen_ok {m : Narrow K} {src : List K} (hs : m.disIn.Pairwise (· < ·))
    (hlt : ∀ d ∈ m.disIn, d < m.F.inSize) (hst : m.disIn = [] ∨ m.state.length = m.F.inSize)
    (hsrc : src.length = m.inputSize) :
    ∃ w, m.widenInput src = .ok w ∧ w.length = m.F.inSize ∧
      (∀ i, i ∈ m.disIn → w.getD i 0 = m.state.getD i 0) ∧ enabled m.disIn w = src := by
  have hnd : m.disIn.Nodup := hs.imp (fun h => Nat.ne_of_lt h)
  have hcount := length_idx hnd hlt
  unfold Narrow.inputSize at hsrc
  unfold Narrow.widenInput
  by_cases he : m.disIn = []
  · rw [he]
    rw [he] at hsrc
    exact ⟨src, rfl, hsrc, by simp, enabled_nil src⟩
  rw [if_neg (by simpa using he)]
  have hst := hst.resolve_left he
  have := loop_post (lo := 0) (hi := m.F.inSize)
    (s := ((m.disIn, 0, List.replicate m.F.inSize 0) : List Nat × Nat × List K))
    (f := fun is st => do
        let ds := st.1.dropWhile (· < is)
        if ds.head? = some is then do
          let v ← at' m.state is
          let dst ← atSet st.2.2 is v
          .ok (ds, st.2.1, dst)
        else do
          let v ← at' src st.2.1
          let dst ← atSet st.2.2 is v
          .ok (ds, st.2.1 + 1, dst))
    (fun j st => st.1.Pairwise (· < ·) ∧ (∀ d, j ≤ d → (d ∈ st.1 ↔ d ∈ m.disIn)) ∧
      st.2.1 = (idx m.disIn j).length ∧ st.2.2.length = m.F.inSize ∧
      ∀ k, k < j → st.2.2.getD k 0
        = if k ∈ m.disIn then m.state.getD k 0 else src.getD (idx m.disIn k).length 0)
    (E := fun _ => False) (Nat.zero_le _)
    ⟨hs, fun _ _ => Iff.rfl, rfl, by simp, fun k hk => absurd hk (Nat.not_lt_zero _)⟩ (by
      intro j st _ hj ⟨b1, b2, b3, b4, b5⟩
      have hdp : (st.1.dropWhile (· < j)).Pairwise (· < ·) := b1.sublist (List.dropWhile_sublist _)
      have hdm := mem_dropWhile_lt b1 j
      have hmem : (st.1.dropWhile (· < j)).head? = some j ↔ j ∈ m.disIn := by
        rw [head_dropWhile b1, b2 j (Nat.le_refl _)]
      have hlast : ∀ d, j + 1 ≤ d → (d ∈ st.1.dropWhile (· < j) ↔ d ∈ m.disIn) := by
        intro d hd
        rw [hdm, b2 d (by omega)]
        exact ⟨fun h => h.1, fun h => ⟨h, by omega⟩⟩
      dsimp only
      by_cases hd : j ∈ m.disIn
      · rw [if_pos (hmem.2 hd), at_lt (by omega), bind_ok]
        unfold atSet
        rw [if_pos (by omega), bind_ok]
        refine ⟨hdp, hlast, ?_, by simp [b4], ?_⟩
        · dsimp only
          rw [idx_succ, if_pos hd, b3]
        · intro k hk
          dsimp only
          rw [getD_set (by omega)]
          by_cases hkj : k = j
          · rw [if_pos hkj, hkj, if_pos hd]
          · rw [if_neg hkj, b5 k (by omega)]
      · rw [if_neg (fun h => hd (hmem.1 h))]
        have h1 := idx_length_lt hj hd
        rw [at_lt (by omega), bind_ok]
        unfold atSet
        rw [if_pos (by omega), bind_ok]
        refine ⟨hdp, hlast, ?_, by simp [b4], ?_⟩
        · dsimp only
          rw [idx_succ, if_neg hd, b3, List.length_append]
          rfl
        · intro k hk
          dsimp only
          rw [getD_set (by omega)]
          by_cases hkj : k = j
          · rw [if_pos hkj, hkj, if_neg hd, b3]
          · rw [if_neg hkj, b5 k (by omega)])
  rw [post_false_iff] at this
  obtain ⟨r, hr, _, _, _, c4, c5⟩ := this
  rw [hr, bind_ok]
  refine ⟨r.2.2, rfl, c4, ?_, ?_⟩
  · intro i hi
    rw [c5 i (hlt i hi), if_pos hi]
  · unfold enabled
    rw [c4]
    apply ext_getD
    · rw [List.length_map]; omega
    · intro i hi
      have hi' : i < (idx m.disIn m.F.inSize).length := by omega
      have hk : (idx m.disIn m.F.inSize).getD i 0 ∈ idx m.disIn m.F.inSize := by
        simp [List.getD_eq_getElem?_getD, List.getElem?_eq_getElem hi']
      obtain ⟨h1, h2⟩ := mem_idx.1 hk
      have : ((idx m.disIn m.F.inSize).map (r.2.2.getD · 0)).getD i 0
          = r.2.2.getD ((idx m.disIn m.F.inSize).getD i 0) 0 := by
        simp [List.getD_eq_getElem?_getD, List.getElem?_eq_getElem hi']
      rw [this, c5 _ h1, if_neg h2, rank_idx _ _ _ hi']

end

end Verif.Alg
