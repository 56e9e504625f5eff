import Verif.LU.Spec
import Verif.LU.Solve
import Mathlib.Data.List.Nodup

/-! # `setMatrix` establishes the representation (helper lemmas) -/

namespace Verif.LU

open Verif.Res Finset

variable {K : Type _}

/-! ### size -/

theorem extents_le (es : Entries K) (a m : Nat × Nat) :
    ((es.foldl (fun a e => (max a.1 (e.1.1 + 1), max a.2 (e.1.2 + 1))) a).1 ≤ m.1
      ↔ a.1 ≤ m.1 ∧ ∀ e ∈ es, e.1.1 < m.1)
    ∧ ((es.foldl (fun a e => (max a.1 (e.1.1 + 1), max a.2 (e.1.2 + 1))) a).2 ≤ m.2
      ↔ a.2 ≤ m.2 ∧ ∀ e ∈ es, e.1.2 < m.2) := by
  induction es generalizing a with
  | nil => simp
  | cons e es ih =>
    simp only [List.foldl_cons, List.mem_cons, forall_eq_or_imp]
    have h := ih (max a.1 (e.1.1 + 1), max a.2 (e.1.2 + 1))
    rw [h.1, h.2]
    simp only [max_le_iff, Nat.succ_le_iff]
    constructor <;> tauto

theorem extents_fst_le (es : Entries K) (m : Nat) :
    (extents es).1 ≤ m ↔ ∀ r c, Key es r c → r < m := by
  have := (extents_le es (0, 0) (m, m)).1
  unfold extents
  rw [this]
  simp only [Nat.zero_le, true_and, Key]
  constructor
  · rintro h r c ⟨v, hv⟩; exact h _ hv
  · intro h e he; exact h e.1.1 e.1.2 ⟨e.2, he⟩

theorem extents_snd_le (es : Entries K) (m : Nat) :
    (extents es).2 ≤ m ↔ ∀ r c, Key es r c → c < m := by
  have := (extents_le es (0, 0) (m, m)).2
  unfold extents
  rw [this]
  simp only [Nat.zero_le, true_and, Key]
  constructor
  · rintro h r c ⟨v, hv⟩; exact h _ hv
  · intro h e he; exact h e.1.1 e.1.2 ⟨e.2, he⟩

theorem extents_of_stencil {n : Nat} {es : Entries K} (h : Stencil n es) :
    extents es = (n, n) := by
  have h1 : (extents es).1 = n := by
    apply le_antisymm
    · exact (extents_fst_le es n).2 (fun r c hk => (h.inside r c hk).1)
    · rcases Nat.eq_zero_or_pos n with rfl | hn
      · exact Nat.zero_le _
      · obtain ⟨c, _, hk⟩ := h.row (n - 1) (by omega)
        have := (extents_fst_le es _).1 (le_refl _) _ _ hk
        omega
  have h2 : (extents es).2 = n := by
    apply le_antisymm
    · exact (extents_snd_le es n).2 (fun r c hk => (h.inside r c hk).2)
    · rcases Nat.eq_zero_or_pos n with rfl | hn
      · exact Nat.zero_le _
      · obtain ⟨c, _, hk⟩ := h.col (n - 1) (by omega)
        have := (extents_snd_le es _).1 (le_refl _) _ _ hk
        omega
  exact Prod.ext h1 h2

/-! ### scan -/

def pStep (P : Nat → Nat) (e : (Nat × Nat) × K) : Nat → Nat :=
  fun j => if j = e.1.1 then (if P j > e.1.2 then e.1.2 else P j) else P j
def qStep (P : Nat → Nat) (e : (Nat × Nat) × K) : Nat → Nat :=
  fun j => if j = e.1.2 then (if P j > e.1.1 then e.1.1 else P j) else P j
def sStep (P : Nat → Nat) (e : (Nat × Nat) × K) : Nat → Nat :=
  fun j => if j = e.1.1 then (if P j < e.1.2 then e.1.2 else P j) else P j

theorem scanOne_eq {n : Nat} {P Q S : Nat → Nat} {e : (Nat × Nat) × K} (hr : e.1.1 < n)
    (hc : e.1.2 < n) :
    scanOne ((List.range n).map P, (List.range n).map Q, (List.range n).map S) e
      = .ok ((List.range n).map (pStep P e), (List.range n).map (qStep Q e),
          (List.range n).map (sStep S e)) := by
  unfold scanOne
  simp only [raw_map_range hr, raw_map_range hc, bind_ok, rawSet_map_range _ hr,
    rawSet_map_range _ hc]
  congr 2
  · congr 1; funext j; unfold pStep; split <;> simp_all
  congr 2
  · funext j; unfold qStep; split <;> simp_all
  · funext j; unfold sStep; split <;> simp_all

theorem scan_fold {n : Nat} (es : Entries K) (h : ∀ e ∈ es, e.1.1 < n ∧ e.1.2 < n)
    (P Q S : Nat → Nat) :
    es.foldlM scanOne ((List.range n).map P, (List.range n).map Q, (List.range n).map S)
      = (.ok ((List.range n).map (es.foldl pStep P), (List.range n).map (es.foldl qStep Q),
          (List.range n).map (es.foldl sStep S)) : Res _) := by
  induction es generalizing P Q S with
  | nil => rfl
  | cons e es ih =>
    rw [List.foldlM_cons, scanOne_eq (h e (by simp)).1 (h e (by simp)).2]
    simp only [bind_ok, List.foldl_cons]
    exact ih (fun e' he' => h e' (by simp [he'])) _ _ _

theorem pFold_le (es : Entries K) (P : Nat → Nat) (r c : Nat) :
    es.foldl pStep P r ≤ c ↔ P r ≤ c ∨ ∃ c', c' ≤ c ∧ Key es r c' := by
  induction es generalizing P with
  | nil => simp [Key]
  | cons e es ih =>
    rw [List.foldl_cons, ih]
    unfold pStep
    obtain ⟨⟨er, ec⟩, ev⟩ := e
    simp only [Key, List.mem_cons, Prod.mk.injEq]
    by_cases hr : r = er
    · subst hr
      simp only [if_true, true_and]
      constructor
      · rintro (h | ⟨c', h1, v, h2⟩)
        · split at h
          · exact .inr ⟨ec, h, ev, .inl ⟨rfl, rfl⟩⟩
          · exact .inl h
        · exact .inr ⟨c', h1, v, .inr h2⟩
      · rintro (h | ⟨c', h1, v, ⟨rfl, rfl⟩ | h2⟩)
        · left; split <;> omega
        · left; split <;> omega
        · exact .inr ⟨c', h1, v, h2⟩
    · simp only [if_neg hr]
      constructor
      · rintro (h | ⟨c', h1, v, h2⟩)
        · exact .inl h
        · exact .inr ⟨c', h1, v, .inr h2⟩
      · rintro (h | ⟨c', h1, v, ⟨⟨h3, _⟩, _⟩ | h2⟩)
        · exact .inl h
        · exact absurd h3 hr
        · exact .inr ⟨c', h1, v, h2⟩

theorem qFold_le (es : Entries K) (P : Nat → Nat) (c r : Nat) :
    es.foldl qStep P c ≤ r ↔ P c ≤ r ∨ ∃ r', r' ≤ r ∧ Key es r' c := by
  induction es generalizing P with
  | nil => simp [Key]
  | cons e es ih =>
    rw [List.foldl_cons, ih]
    unfold qStep
    obtain ⟨⟨er, ec⟩, ev⟩ := e
    simp only [Key, List.mem_cons, Prod.mk.injEq]
    by_cases hr : c = ec
    · subst hr
      simp only [if_true, and_true]
      constructor
      · rintro (h | ⟨c', h1, v, h2⟩)
        · split at h
          · exact .inr ⟨er, h, ev, .inl ⟨rfl, rfl⟩⟩
          · exact .inl h
        · exact .inr ⟨c', h1, v, .inr h2⟩
      · rintro (h | ⟨c', h1, v, ⟨rfl, rfl⟩ | h2⟩)
        · left; split <;> omega
        · left; split <;> omega
        · exact .inr ⟨c', h1, v, h2⟩
    · simp only [if_neg hr]
      constructor
      · rintro (h | ⟨c', h1, v, h2⟩)
        · exact .inl h
        · exact .inr ⟨c', h1, v, .inr h2⟩
      · rintro (h | ⟨c', h1, v, ⟨⟨_, h3⟩, _⟩ | h2⟩)
        · exact .inl h
        · exact absurd h3 hr
        · exact .inr ⟨c', h1, v, h2⟩

theorem sFold_ge (es : Entries K) (P : Nat → Nat) (r c : Nat) :
    c ≤ es.foldl sStep P r ↔ c ≤ P r ∨ ∃ c', c ≤ c' ∧ Key es r c' := by
  induction es generalizing P with
  | nil => simp [Key]
  | cons e es ih =>
    rw [List.foldl_cons, ih]
    unfold sStep
    obtain ⟨⟨er, ec⟩, ev⟩ := e
    simp only [Key, List.mem_cons, Prod.mk.injEq]
    by_cases hr : r = er
    · subst hr
      simp only [if_true, true_and]
      constructor
      · rintro (h | ⟨c', h1, v, h2⟩)
        · split at h
          · exact .inr ⟨ec, h, ev, .inl ⟨rfl, rfl⟩⟩
          · exact .inl h
        · exact .inr ⟨c', h1, v, .inr h2⟩
      · rintro (h | ⟨c', h1, v, ⟨rfl, rfl⟩ | h2⟩)
        · left; split <;> omega
        · left; split <;> omega
        · exact .inr ⟨c', h1, v, h2⟩
    · simp only [if_neg hr]
      constructor
      · rintro (h | ⟨c', h1, v, h2⟩)
        · exact .inl h
        · exact .inr ⟨c', h1, v, .inr h2⟩
      · rintro (h | ⟨c', h1, v, ⟨⟨h3, _⟩, _⟩ | h2⟩)
        · exact .inl h
        · exact absurd h3 hr
        · exact .inr ⟨c', h1, v, h2⟩

/-- first column of row `r` (`n` if none) -/
def pOf (n : Nat) (es : Entries K) : Nat → Nat := es.foldl pStep (fun _ => n)
/-- first row of column `c` -/
def qOf (n : Nat) (es : Entries K) : Nat → Nat := es.foldl qStep (fun _ => n)
/-- last column of row `r` -/
def sOf (es : Entries K) : Nat → Nat := es.foldl sStep (fun _ => 0)

theorem scan_eq {n : Nat} {es : Entries K} (h : ∀ r c, Key es r c → r < n ∧ c < n) :
    scan n es = .ok ((List.range n).map (pOf n es), (List.range n).map (qOf n es),
      (List.range n).map (sOf es)) := by
  have hr : ∀ v : Nat, List.replicate n v = (List.range n).map (fun _ => v) := by
    intro v; simp
  unfold scan
  rw [hr n, hr 0]
  exact scan_fold es (fun e he => h e.1.1 e.1.2 ⟨e.2, he⟩) _ _ _

theorem pOf_le {n : Nat} {es : Entries K} {r c : Nat} (hc : c < n) :
    pOf n es r ≤ c ↔ ∃ c', c' ≤ c ∧ Key es r c' := by
  unfold pOf; rw [pFold_le]; constructor
  · rintro (h | h)
    · omega
    · exact h
  · exact .inr

theorem qOf_le {n : Nat} {es : Entries K} {r c : Nat} (hr : r < n) :
    qOf n es c ≤ r ↔ ∃ r', r' ≤ r ∧ Key es r' c := by
  unfold qOf; rw [qFold_le]; constructor
  · rintro (h | h)
    · omega
    · exact h
  · exact .inr

theorem sOf_ge {es : Entries K} {r c : Nat} (hc : 0 < c) :
    c ≤ sOf es r ↔ ∃ c', c ≤ c' ∧ Key es r c' := by
  unfold sOf; rw [sFold_ge]; constructor
  · rintro (h | h)
    · omega
    · exact h
  · exact .inr

/-! ### verify -/

theorem verify_ok {n : Nat} {P Q : Nat → Nat} (h : ∀ i, i < n → P i ≤ i ∧ Q i ≤ i) :
    verify n ((List.range n).map P) ((List.range n).map Q) = .ok () := by
  have : Post (verify n ((List.range n).map P) ((List.range n).map Q)) (fun _ => True)
      (fun _ => False) := by
    unfold verify
    refine loop_post (fun _ _ => True) (Nat.zero_le _) trivial ?_
    intro i _ _ hi _
    rw [raw_map_range hi, raw_map_range hi]
    have := h i hi
    simp only [bind_ok]
    rw [if_neg (by omega), if_neg (by omega)]
    trivial
  obtain ⟨a, h1, _⟩ := post_false_iff.1 this
  exact h1

theorem verify_post {n : Nat} {P Q : Nat → Nat} :
    Post (verify n ((List.range n).map P) ((List.range n).map Q))
      (fun _ => ∀ i, i < n → P i ≤ i ∧ Q i ≤ i) (fun e => ∃ msg, e = .exc msg) := by
  unfold verify
  refine (loop_post (fun j _ => ∀ i, i < j → P i ≤ i ∧ Q i ≤ i) (Nat.zero_le _) ?_ ?_)
  · intro i hi; omega
  · intro i _ _ hi hj
    rw [raw_map_range hi, raw_map_range hi]
    simp only [bind_ok]
    split
    · exact ⟨_, rfl⟩
    · split
      · exact ⟨_, rfl⟩
      · intro i' hi'
        rcases Nat.lt_succ_iff_lt_or_eq.1 hi' with h | rfl
        · exact hj i' h
        · omega

/-! ### address sequences -/

theorem addrs_eq (d : Nat) (P : Nat → Nat) (m i a : Nat) :
    addrs d i a ((List.range' i m).map P)
      = (List.range' i (m + 1)).map (fun j => a + ∑ k ∈ Ico i j, (k - P k + d)) := by
  induction m generalizing i a with
  | zero => simp [addrs]
  | succ m ih =>
    rw [List.range'_succ (n := m), List.map_cons, addrs, ih, List.range'_succ (n := m + 1),
      List.map_cons]
    simp only [Ico_self, sum_empty, add_zero]
    congr 1
    apply List.map_congr_left
    intro j hj
    have hj := List.mem_range'_1.1 hj
    rw [Finset.sum_eq_sum_Ico_succ_bot (show i < j by omega)]
    omega

theorem addrs_aOf (d : Nat) (P : Nat → Nat) (n : Nat) :
    addrs d 0 0 ((List.range n).map P) = (List.range (n + 1)).map (aOf d P) := by
  rw [List.range_eq_range', addrs_eq, List.range_eq_range']
  apply List.map_congr_left
  intro j _
  rw [aOf, Finset.range_eq_Ico, Nat.zero_add]

theorem addrs_last (d : Nat) (P : Nat → Nat) (n : Nat) :
    (addrs d 0 0 ((List.range n).map P)).getLastD 0 = aOf d P n := by
  rw [addrs_aOf, List.range_succ, List.map_append]
  simp

/-! ### storing -/

/-- position inside the envelope -/
def EnvPos (E : Sten) (r c : Nat) : Prop :=
  r < E.n ∧ c < E.n ∧ (c < r → E.p r ≤ c) ∧ (r ≤ c → E.q c ≤ r)

theorem store_fold {E : Sten} {f : Bool} (es : Entries K)
    (h : ∀ e ∈ es, EnvPos E e.1.1 e.1.2) {M : Nat → Nat → K} {st : Fact K} (hR : Rep E f M st) :
    ∃ st', es.foldlM storeOne st = (.ok st' : Res _)
      ∧ Rep E f (es.foldl (fun M e => upd M e.1.1 e.1.2 e.2) M) st' := by
  induction es generalizing M st with
  | nil => exact ⟨st, rfl, hR⟩
  | cons e es ih =>
    obtain ⟨h1, h2, h3, h4⟩ := h e (by simp)
    rw [List.foldlM_cons, List.foldl_cons]
    unfold storeOne
    split
    · rename_i hle
      obtain ⟨st', e1, e2⟩ := hR.wrU h2 hle (h4 hle) e.2
      rw [e1]
      exact ih (fun e' he' => h e' (by simp [he'])) e2
    · rename_i hle
      obtain ⟨st', e1, e2⟩ := hR.wrL h1 (by omega) (h3 (by omega)) e.2
      rw [e1]
      exact ih (fun e' he' => h e' (by simp [he'])) e2

theorem upd_fold_not_key (es : Entries K) (M : Nat → Nat → K) {r c : Nat} (h : ¬ Key es r c) :
    es.foldl (fun M e => upd M e.1.1 e.1.2 e.2) M r c = M r c := by
  induction es generalizing M with
  | nil => rfl
  | cons e es ih =>
    rw [List.foldl_cons, ih]
    · rw [upd_ne]
      rintro ⟨rfl, rfl⟩
      exact h ⟨e.2, by simp⟩
    · rintro ⟨v, hv⟩; exact h ⟨v, by simp [hv]⟩

theorem upd_fold_key (es : Entries K) (hd : Distinct es) (M : Nat → Nat → K) {r c : Nat} {v : K}
    (h : ((r, c), v) ∈ es) :
    es.foldl (fun M e => upd M e.1.1 e.1.2 e.2) M r c = v := by
  induction es generalizing M with
  | nil => simp at h
  | cons e es ih =>
    rw [List.foldl_cons]
    unfold Distinct at hd
    rw [List.map_cons, List.nodup_cons] at hd
    rcases List.mem_cons.1 h with h | h
    · subst h
      rw [upd_fold_not_key, upd_same]
      rintro ⟨w, hw⟩
      exact hd.1 (List.mem_map.2 ⟨_, hw, rfl⟩)
    · exact ih hd.2 _ h

theorem entry_of_mem [Zero K] (es : Entries K) (hd : Distinct es) {r c : Nat} {v : K}
    (h : ((r, c), v) ∈ es) : entry es r c = v := by
  unfold entry
  cases hf : es.find? (fun e => e.1 == (r, c)) with
  | none =>
    have := List.find?_eq_none.1 hf _ h
    simp at this
  | some e =>
    have h1 := List.find?_some hf
    have h2 := List.mem_of_find?_eq_some hf
    simp only [beq_iff_eq] at h1
    have : e = ((r, c), v) := by
      have hinj := List.inj_on_of_nodup_map hd
      exact hinj h2 h h1
    rw [this]

theorem entry_of_not_key [Zero K] (es : Entries K) {r c : Nat} (h : ¬ Key es r c) :
    entry es r c = 0 := by
  unfold entry
  cases hf : es.find? (fun e => e.1 == (r, c)) with
  | none => rfl
  | some e =>
    have h1 := List.find?_some hf
    have h2 := List.mem_of_find?_eq_some hf
    simp only [beq_iff_eq] at h1
    exact absurd ⟨e.2, by rw [← h1]; exact h2⟩ h

theorem upd_fold_zero [Zero K] (es : Entries K) (hd : Distinct es) :
    es.foldl (fun M e => upd M e.1.1 e.1.2 e.2) (fun _ _ => 0) = entry es := by
  funext r c
  by_cases h : Key es r c
  · obtain ⟨v, hv⟩ := h
    rw [upd_fold_key es hd _ hv, entry_of_mem es hd hv]
  · rw [upd_fold_not_key es _ h, entry_of_not_key es h]

/-- Envelope of an accepted stencil. -/
def stenOf {n : Nat} {es : Entries K} (h : Stencil n es) : Sten where
  n := n
  p := pOf n es
  q := qOf n es
  s := sOf es
  p_le := fun i hi => (pOf_le hi).2 (h.row i hi)
  q_le := fun i hi => (qOf_le hi).2 (h.col i hi)
  s_lt := by
    intro i hi
    by_contra hc
    rw [not_lt] at hc
    rcases Nat.eq_zero_or_pos n with rfl | hn
    · omega
    · obtain ⟨c', h1, h2⟩ := (sOf_ge hn).1 hc
      have := (h.inside _ _ h2).2
      omega

theorem envPos_of_key {n : Nat} {es : Entries K} (h : Stencil n es) {r c : Nat}
    (hk : Key es r c) : EnvPos (stenOf h) r c := by
  obtain ⟨hr, hc⟩ := h.inside r c hk
  exact ⟨hr, hc, fun _ => (pOf_le hc).2 ⟨c, le_refl _, hk⟩, fun _ => (qOf_le hr).2 ⟨r, le_refl _, hk⟩⟩

/-- The state before the elements are stored. -/
def blank [Zero K] {n : Nat} {es : Entries K} (h : Stencil n es) (f : Bool) : Fact K :=
  { p := (List.range n).map (stenOf h).p
    q := (List.range n).map (stenOf h).q
    s := (List.range n).map (stenOf h).s
    al := (List.range (n + 1)).map (aOf 0 (stenOf h).p)
    au := (List.range (n + 1)).map (aOf 1 (stenOf h).q)
    l := List.replicate (aOf 0 (stenOf h).p n) 0
    u := List.replicate (aOf 1 (stenOf h).q n) 0
    factorized := f }

theorem blank_rep [Zero K] {n : Nat} {es : Entries K} (h : Stencil n es) (f : Bool) :
    Rep (stenOf h) f (fun _ _ => (0 : K)) (blank h f) := by
  refine ⟨⟨rfl, rfl, rfl, rfl, rfl, by simp [blank, stenOf], by simp [blank, stenOf]⟩, rfl, ?_, ?_⟩
  · intro r c hr hc hp
    have := cellL_lt (stenOf h) hr hc hp
    simp only [blank]
    rw [List.getElem?_replicate]; exact if_pos this
  · intro r c hc hr hq
    have := cellU_lt (stenOf h) hc hr hq
    simp only [blank]
    rw [List.getElem?_replicate]; exact if_pos this

theorem setMatrix_eq [Zero K] {n : Nat} {es : Entries K} (h : Stencil n es) (st : Fact K) :
    ∃ st2, es.foldlM storeOne (blank h st.factorized) = (.ok st2 : Res _)
      ∧ setMatrix st es = .ok { st2 with factorized := false }
      ∧ Rep (stenOf h) st.factorized
          (es.foldl (fun M e => upd M e.1.1 e.1.2 e.2) (fun _ _ => 0)) st2 := by
  obtain ⟨st2, e1, e2⟩ := store_fold es
    (fun e he => envPos_of_key h (r := e.1.1) (c := e.1.2) ⟨e.2, he⟩) (blank_rep h st.factorized)
  refine ⟨st2, e1, ?_, e2⟩
  unfold setMatrix setMatrixFull
  rw [extents_of_stencil h]
  simp only [ne_eq, not_true_eq_false, if_false]
  rw [scan_eq h.inside]
  simp only []
  rw [verify_ok (n := n) (P := pOf n es) (Q := qOf n es)
    (fun i hi => ⟨(stenOf h).p_le i hi, (stenOf h).q_le i hi⟩)]
  simp only [addrs_last]
  rw [addrs_aOf, addrs_aOf]
  have : ∀ x : Res (Fact K), x = .ok st2 → (match (match x with
      | .error e => (⟨blank h st.factorized, some e⟩ : SetResult K)
      | .ok st2 => ⟨{ st2 with factorized := false }, none⟩) with
        | ⟨st', none⟩ => .ok st'
        | ⟨_, some e⟩ => .error e) = (.ok { st2 with factorized := false } : Res _) := by
    intro x hx; subst hx; rfl
  exact this _ e1

/-- `setMatrix` on an acceptable stencil stores the matrix. -/
theorem setMatrix_rep [Zero K] {n : Nat} {es : Entries K} (h : Stencil n es) (hd : Distinct es)
    (st : Fact K) :
    ∃ st', setMatrix st es = .ok st' ∧ Rep (stenOf h) false (entry es) st' := by
  obtain ⟨st2, e1, e2, e3⟩ := setMatrix_eq h st
  refine ⟨_, e2, ?_⟩
  rw [upd_fold_zero es hd] at e3
  exact ⟨⟨e3.p, e3.q, e3.s, e3.al, e3.au, e3.l, e3.u⟩, rfl, e3.L, e3.U⟩

/-- `setMatrix` rejects everything else, with an exception. -/
theorem setMatrix_reject [Zero K] (es : Entries K) (st : Fact K) :
    Post (setMatrix st es) (fun _ => ∃ n, Stencil n es) (fun e => ∃ msg, e = .exc msg) := by
  by_cases hst : ∃ n, Stencil n es
  · obtain ⟨n, h⟩ := hst
    obtain ⟨st2, _, e2, _⟩ := setMatrix_eq h st
    exact Post.of_ok e2 ⟨n, h⟩
  unfold setMatrix setMatrixFull
  by_cases hne : (extents es).1 ≠ (extents es).2
  · simp only [if_pos hne]
    exact ⟨_, rfl⟩
  · simp only [if_neg hne]
    rw [not_not] at hne
    have hin : ∀ r c, Key es r c → r < (extents es).1 ∧ c < (extents es).1 := by
      intro r c hk
      exact ⟨(extents_fst_le es _).1 (le_refl _) r c hk,
        (extents_snd_le es _).1 hne.ge r c hk⟩
    simp only [scan_eq hin]
    have hv := verify_post (n := (extents es).1) (P := pOf (extents es).1 es)
      (Q := qOf (extents es).1 es)
    cases hver : verify (extents es).1 ((List.range (extents es).1).map (pOf (extents es).1 es))
      ((List.range (extents es).1).map (qOf (extents es).1 es)) with
    | error e =>
      rw [hver] at hv
      exact hv
    | ok u =>
      rw [hver] at hv
      exact absurd ⟨_, hin, fun i hi => (pOf_le hi).1 (hv i hi).1,
        fun i hi => (qOf_le hi).1 (hv i hi).2⟩ hst

/-- The matrix vanishes outside its envelope. -/
theorem inEnv_entry [Field K] {n : Nat} {es : Entries K} (h : Stencil n es) :
    InEnv (stenOf h) (entry es) := by
  constructor
  · intro r c hr hc hp
    apply entry_of_not_key
    intro hk
    have : pOf n es r ≤ c := (pOf_le (by have : r < n := hr; omega)).2 ⟨c, le_refl _, hk⟩
    have hp : c < pOf n es r := hp
    omega
  · intro r c hc hr hq
    apply entry_of_not_key
    intro hk
    have : qOf n es c ≤ r := (qOf_le (by have : c < n := hc; omega)).2 ⟨r, le_refl _, hk⟩
    have hq : r < qOf n es c := hq
    omega

end Verif.LU
