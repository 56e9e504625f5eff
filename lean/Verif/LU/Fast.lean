import Verif.LU.Update
import Verif.LU.SetMatrix

/-! # `setMatrixFast` -/

namespace Verif.LU

open Verif.Res Finset

variable {K : Type}

/-- `m_factorized` plays no role while storing. -/
theorem storeOne_flag (f : Bool) (a : Fact K) (e : (Nat × Nat) × K) :
    storeOne { a with factorized := f } e
      = (storeOne a e).map (fun b => { b with factorized := f }) := by
  unfold storeOne
  split
  · unfold wrU
    cases h : adr a.au a.q e.1.2 e.1.1 with
    | error x => rfl
    | ok x =>
      simp only [bind_ok]
      cases h2 : rawSet a.u x e.2 <;> rfl
  · unfold wrL
    cases h : adr a.al a.p e.1.1 e.1.2 with
    | error x => rfl
    | ok x =>
      simp only [bind_ok]
      cases h2 : rawSet a.l x e.2 <;> rfl

theorem store_flag (f : Bool) (es : Entries K) (a : Fact K) :
    es.foldlM storeOne { a with factorized := f }
      = ((es.foldlM storeOne a).map (fun b => { b with factorized := f }) : Res _) := by
  induction es generalizing a with
  | nil => rfl
  | cons e es ih =>
    rw [List.foldlM_cons, List.foldlM_cons, storeOne_flag]
    cases h : storeOne a e with
    | error x => rfl
    | ok b =>
      simp only [Except.map, bind_ok]
      exact ih b

/-- The outcome of `setMatrix` does not depend on the previous contents. -/
theorem setMatrix_fresh [Zero K] (st st1 : Fact K) (es : Entries K) :
    setMatrix st es = setMatrix st1 es := by
  unfold setMatrix setMatrixFull
  simp only
  split_ifs
  · rfl
  · cases h : scan (extents es).1 es with
    | error e => rfl
    | ok pqs =>
      obtain ⟨p, q, s⟩ := pqs
      simp only
      cases hv : verify (extents es).1 p q with
      | error e => rfl
      | ok _ =>
        simp only
        have h1 := store_flag st.factorized es
          { p := p, q := q, s := s, al := addrs 0 0 0 p, au := addrs 1 0 0 q
            l := List.replicate ((addrs 0 0 0 p).getLastD 0) (0 : K)
            u := List.replicate ((addrs 1 0 0 q).getLastD 0) 0, factorized := false }
        have h2 := store_flag st1.factorized es
          { p := p, q := q, s := s, al := addrs 0 0 0 p, au := addrs 1 0 0 q
            l := List.replicate ((addrs 0 0 0 p).getLastD 0) (0 : K)
            u := List.replicate ((addrs 1 0 0 q).getLastD 0) 0, factorized := false }
        simp only at h1 h2
        rw [h1, h2]
        cases es.foldlM storeOne
          { p := p, q := q, s := s, al := addrs 0 0 0 p, au := addrs 1 0 0 q
            l := List.replicate ((addrs 0 0 0 p).getLastD 0) (0 : K)
            u := List.replicate ((addrs 1 0 0 q).getLastD 0) 0, factorized := false } <;> rfl

/-- Every cell of a packed array belongs to an envelope position. -/
theorem cell_surj {d : Nat} {p : Nat → Nat} {n a : Nat} (hp : ∀ i, i < n → p i ≤ i)
    (h : a < aOf d p n) :
    ∃ r c, r < n ∧ p r ≤ c ∧ c < r + d ∧ a = aOf d p r + (c - p r) := by
  induction n with
  | zero => simp [aOf] at h
  | succ n ih =>
    by_cases h' : a < aOf d p n
    · obtain ⟨r, c, h1, h2⟩ := ih (fun i hi => hp i (by omega)) h'
      exact ⟨r, c, by omega, h2⟩
    · rw [aOf_succ] at h
      have := hp n (by omega)
      exact ⟨n, p n + (a - aOf d p n), by omega, by omega, by omega, by omega⟩

/-- The stored values determine the object. -/
theorem Rep.unique {E : Sten} {f : Bool} {M : Nat → Nat → K} {a b : Fact K} (ha : Rep E f M a)
    (hb : Rep E f M b) : a = b := by
  have hl : a.l = b.l := by
    apply List.ext_getElem?
    intro i
    by_cases hi : i < aOf 0 E.p E.n
    · obtain ⟨r, c, h1, h2, h3, rfl⟩ := cell_surj E.p_le hi
      rw [ha.L r c h1 h3 h2, hb.L r c h1 h3 h2]
    · rw [List.getElem?_eq_none (by rw [ha.l]; omega), List.getElem?_eq_none (by rw [hb.l]; omega)]
  have hu : a.u = b.u := by
    apply List.ext_getElem?
    intro i
    by_cases hi : i < aOf 1 E.q E.n
    · obtain ⟨c, r, h1, h2, h3, rfl⟩ := cell_surj E.q_le hi
      rw [ha.U r c h1 (by omega) h2, hb.U r c h1 (by omega) h2]
    · rw [List.getElem?_eq_none (by rw [ha.u]; omega), List.getElem?_eq_none (by rw [hb.u]; omega)]
  have h1 := ha.p; have h2 := ha.q; have h3 := ha.s; have h4 := ha.al; have h5 := ha.au
  have h6 := ha.fact
  have g1 := hb.p; have g2 := hb.q; have g3 := hb.s; have g4 := hb.al; have g5 := hb.au
  have g6 := hb.fact
  obtain ⟨p, q, s, al, au, l, u, f1⟩ := a
  obtain ⟨p', q', s', al', au', l', u', f1'⟩ := b
  simp only at *
  subst h1 h2 h3 h4 h5 h6 g1 g2 g3 g4 g5 hl hu
  rw [g6]

/-- Zeroing the packed arrays (LUFactorizer.h:132-135). -/
theorem zero_rep [Zero K] {E : Sten} {f : Bool} {M : Nat → Nat → K} {st : Fact K}
    (h : Rep E f M st) :
    Rep E f (fun _ _ => (0 : K))
      { st with l := st.l.map (fun _ => 0), u := st.u.map (fun _ => 0) } := by
  refine ⟨⟨h.p, h.q, h.s, h.al, h.au, by simpa using h.l, by simpa using h.u⟩, h.fact, ?_, ?_⟩
  · intro r c hr hc hp
    simp only [List.getElem?_map, h.L r c hr hc hp, Option.map_some]
  · intro r c hr hc hp
    simp only [List.getElem?_map, h.U r c hr hc hp, Option.map_some]

theorem fastStore_eq {E : Sten} {f : Bool} (es : Entries K)
    (h : ∀ e ∈ es, e.1.1 < E.n ∧ e.1.2 < E.n) {M : Nat → Nat → K} {st : Fact K}
    (hR : Rep E f M st) :
    (∃ st', fastStore es st = .ok (some st') ∧ (∀ e ∈ es, EnvPos E e.1.1 e.1.2)
      ∧ Rep E f (es.foldl (fun M e => upd M e.1.1 e.1.2 e.2) M) st')
    ∨ (fastStore es st = .ok none ∧ ∃ e ∈ es, ¬ EnvPos E e.1.1 e.1.2) := by
  induction es generalizing M st with
  | nil => exact .inl ⟨st, rfl, by simp, hR⟩
  | cons e es ih =>
    obtain ⟨hr, hc⟩ := h e (by simp)
    unfold fastStore setLU
    rw [List.foldl_cons]
    have next : ∀ st1, Rep E f (upd M e.1.1 e.1.2 e.2) st1 → EnvPos E e.1.1 e.1.2 →
        (∃ st', fastStore es st1 = .ok (some st') ∧ (∀ e' ∈ e :: es, EnvPos E e'.1.1 e'.1.2)
          ∧ Rep E f (es.foldl (fun M e => upd M e.1.1 e.1.2 e.2) (upd M e.1.1 e.1.2 e.2)) st')
        ∨ (fastStore es st1 = .ok none ∧ ∃ e' ∈ e :: es, ¬ EnvPos E e'.1.1 e'.1.2) := by
      intro st1 hst1 hpos
      rcases ih (fun e' he' => h e' (by simp [he'])) hst1 with ⟨st', h1, h2, h3⟩ | ⟨h1, e', h2, h3⟩
      · refine .inl ⟨st', h1, ?_, h3⟩
        intro e' he'
        rcases List.mem_cons.1 he' with rfl | he'
        · exact hpos
        · exact h2 e' he'
      · exact .inr ⟨h1, e', by simp [h2], h3⟩
    by_cases hlt : e.1.2 < e.1.1
    · rw [if_pos hlt, hR.toShape.raw_p hr]
      simp only [bind_ok]
      by_cases hp : e.1.2 ≥ E.p e.1.1
      · obtain ⟨st1, e1, e2⟩ := hR.wrL hr hlt hp e.2
        rw [if_pos hp, e1]
        simp only [bind_ok]
        exact next st1 e2 ⟨hr, hc, fun _ => hp, fun h => by omega⟩
      · rw [if_neg hp]
        refine .inr ⟨rfl, e, by simp, fun h => hp (h.2.2.1 hlt)⟩
    · rw [if_neg hlt, hR.toShape.raw_q hc]
      simp only [bind_ok]
      by_cases hp : e.1.1 ≥ E.q e.1.2
      · obtain ⟨st1, e1, e2⟩ := hR.wrU hc (by omega) hp e.2
        rw [if_pos hp, e1]
        simp only [bind_ok]
        exact next st1 e2 ⟨hr, hc, fun h => by omega, fun _ => hp⟩
      · rw [if_neg hp]
        refine .inr ⟨rfl, e, by simp, fun h => hp (h.2.2.2 (by omega))⟩

/-- What `setMatrixFast` does on an object with envelope `E`. -/
theorem setMatrixFast_eq [Zero K] {E : Sten} {f : Bool} {M : Nat → Nat → K} {st : Fact K}
    (hR : Rep E f M st) (es : Entries K) (hd : Distinct es)
    (h : ∀ r c, Key es r c → r < E.n ∧ c < E.n) :
    (∃ st', setMatrixFast st es = .ok st' ∧ (∀ r c, Key es r c → EnvPos E r c)
      ∧ Rep E false (entry es) st')
    ∨ (setMatrixFast st es = setMatrix st es ∧ ∃ r c, Key es r c ∧ ¬ EnvPos E r c) := by
  unfold setMatrixFast
  simp only
  rcases fastStore_eq es (fun e he => h e.1.1 e.1.2 ⟨e.2, he⟩) (zero_rep hR)
    with ⟨st', h1, h2, h3⟩ | ⟨h1, e, h2, h3⟩
  · rw [h1]
    simp only [bind_ok]
    refine .inl ⟨_, rfl, fun r c ⟨v, hv⟩ => h2 _ hv, ?_⟩
    rw [upd_fold_zero es hd] at h3
    exact ⟨⟨h3.p, h3.q, h3.s, h3.al, h3.au, h3.l, h3.u⟩, rfl, h3.L, h3.U⟩
  · rw [h1]
    simp only [bind_ok]
    exact .inr ⟨setMatrix_fresh _ _ _, e.1.1, e.1.2, ⟨e.2, h2⟩, h3⟩

/-! ### `luToMatrix` -/

/-- The elements written, for an object that holds `A`. -/
theorem luToMatrix_eq {K : Type} [Field K] [DecidableEq K] {E : Sten} {A : Nat → Nat → K}
    {st : Fact K} (h : Holds E A st) (hsh : Shape E st) :
    ∃ es, luToMatrix st = .ok es ∧ Distinct es ∧ ∀ r c v, ((r, c), v) ∈ es ↔
      r < E.n ∧ E.p r ≤ c ∧ c ≤ E.s r ∧ v = A r c ∧ v ≠ 0 := by
  suffices hp : Post (luToMatrix st) (fun es => Distinct es ∧ ∀ r c v, ((r, c), v) ∈ es ↔
      r < E.n ∧ E.p r ≤ c ∧ c ≤ E.s r ∧ v = A r c ∧ v ≠ 0) (fun _ => False) by
    obtain ⟨es, h1, h2⟩ := post_false_iff.1 hp
    exact ⟨es, h1, h2⟩
  unfold luToMatrix
  rw [hsh.len]
  refine loop_post (fun i es => Distinct es ∧ ∀ r c v, ((r, c), v) ∈ es ↔
      r < i ∧ E.p r ≤ c ∧ c ≤ E.s r ∧ v = A r c ∧ v ≠ 0) (Nat.zero_le _)
    ⟨by simp [Distinct], by simp⟩ ?_
  intro i es _ hi ⟨hd, hm⟩
  rw [hsh.raw_p hi, hsh.raw_s hi]
  simp only [bind_ok]
  have hs := E.s_lt i hi
  have hpi := E.p_le i hi
  rcases Nat.lt_or_ge (E.s i + 1) (E.p i) with hlt | hge
  · rw [loop_of_ge (by omega)]
    refine ⟨hd, fun r c v => ?_⟩
    rw [hm]
    constructor
    · rintro ⟨h1, h2⟩; exact ⟨by omega, h2⟩
    · rintro ⟨h1, h2, h3, h4⟩
      refine ⟨?_, h2, h3, h4⟩
      rcases Nat.lt_or_eq_of_le (Nat.le_of_lt_succ h1) with h | rfl
      · exact h
      · omega
  · refine (loop_post (fun j es => Distinct es ∧ ∀ r c v, ((r, c), v) ∈ es ↔
        (r < i ∨ (r = i ∧ c < j)) ∧ E.p r ≤ c ∧ c ≤ E.s r ∧ v = A r c ∧ v ≠ 0) hge
      ⟨hd, fun r c v => ?_⟩ ?_).mono ?_ (fun _ h => h)
    · rw [hm]
      constructor
      · rintro ⟨h1, h2⟩; exact ⟨.inl h1, h2⟩
      · rintro ⟨h1 | ⟨rfl, h1⟩, h2⟩
        · exact ⟨h1, h2⟩
        · omega
    · intro j es' hj hj' ⟨hd', hm'⟩
      rw [h.elementAt hi (by omega)]
      simp only [bind_ok, post_ok]
      by_cases hz : A i j = 0
      · rw [if_neg (by simpa using hz)]
        refine ⟨hd', fun r c v => ?_⟩
        rw [hm']
        constructor
        · rintro ⟨h1, h2⟩; exact ⟨by omega, h2⟩
        · rintro ⟨h1 | ⟨rfl, h1⟩, h2, h3, h4, h5⟩
          · exact ⟨.inl h1, h2, h3, h4, h5⟩
          · refine ⟨.inr ⟨rfl, ?_⟩, h2, h3, h4, h5⟩
            rcases Nat.lt_or_eq_of_le (Nat.le_of_lt_succ h1) with h | rfl
            · exact h
            · exact absurd (h4.trans hz) h5
      · rw [if_pos hz]
        constructor
        · unfold Distinct
          rw [List.map_append, List.nodup_append]
          refine ⟨hd', by simp, ?_⟩
          intro a ha b hb heq
          simp only [List.map_cons, List.map_nil, List.mem_singleton] at hb
          subst hb heq
          obtain ⟨⟨k, v⟩, hk, hk2⟩ := List.mem_map.1 ha
          simp only at hk2
          subst hk2
          have := (hm' i j v).1 hk
          omega
        · intro r c v
          rw [List.mem_append, hm', List.mem_singleton]
          constructor
          · rintro (⟨h1, h2⟩ | h1)
            · exact ⟨by omega, h2⟩
            · simp only [Prod.mk.injEq] at h1
              obtain ⟨⟨rfl, rfl⟩, rfl⟩ := h1
              exact ⟨.inr ⟨rfl, by omega⟩, hj, by omega, rfl, hz⟩
          · rintro ⟨h1, h2, h3, h4, h5⟩
            by_cases hrc : r = i ∧ c = j
            · obtain ⟨rfl, rfl⟩ := hrc
              subst h4
              exact .inr rfl
            · exact .inl ⟨by omega, h2, h3, h4, h5⟩
    · rintro es' ⟨hd', hm'⟩
      refine ⟨hd', fun r c v => ?_⟩
      rw [hm']
      constructor
      · rintro ⟨h1, h2⟩; exact ⟨by omega, h2⟩
      · rintro ⟨h1, h2, h3, h4⟩
        refine ⟨?_, h2, h3, h4⟩
        rcases Nat.lt_or_eq_of_le (Nat.le_of_lt_succ h1) with h | rfl
        · exact .inl h
        · exact .inr ⟨rfl, by omega⟩

end Verif.LU
