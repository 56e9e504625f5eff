import Verif.Event.Model
import Verif.Loop
import Mathlib.Tactic.Linarith
import Mathlib.Tactic.Order
import Mathlib.Tactic.Ring
import Mathlib.Tactic.FieldSimp
import Mathlib.Tactic.LinearCombination

/-! # Lemmas about the linear event controller -/

set_option linter.unusedSectionVars false

namespace Verif.Event

open Verif.Res Verif.RK

section
variable {α : Type}

theorem at_getD {l : List α} {i : Nat} (h : i < l.length) (d : α) : at' l i = .ok (l.getD i d) := by
  unfold at'
  rw [List.getElem?_eq_getElem h, List.getD_eq_getElem?_getD, List.getElem?_eq_getElem h]; rfl

theorem raw_getD {l : List α} {i : Nat} (h : i < l.length) (d : α) :
    raw l i = .ok (l.getD i d) := by
  unfold raw
  rw [List.getElem?_eq_getElem h, List.getD_eq_getElem?_getD, List.getElem?_eq_getElem h]; rfl

theorem rawSet_lt {l : List α} {i : Nat} (h : i < l.length) (a : α) :
    rawSet l i a = .ok (l.set i a) := by unfold rawSet; rw [if_pos h]

theorem atSet_lt {l : List α} {i : Nat} (h : i < l.length) (a : α) :
    atSet l i a = .ok (l.set i a) := by unfold atSet; rw [if_pos h]

theorem getD_set {l : List α} {i j : Nat} (h : i < l.length) (a d : α) :
    (l.set i a).getD j d = if j = i then a else l.getD j d := by
  rw [List.getD_eq_getElem?_getD, List.getD_eq_getElem?_getD, List.getElem?_set]
  by_cases hj : i = j
  · subst hj; simp [h]
  · have : ¬ j = i := fun hh => hj hh.symm
    simp [hj, this]

end

section
variable {K V Q : Type} [Zero K] [One K] [Add K] [Sub K] [Mul K] [Div K] [LinearOrder K] [Add V] [SMul K V]

/-- Function value `z` is on the side from which an event function with these flags is watched;
`st` is the remembered sign. -/
def Side (f : Nat) (st : Int) (z : K) : Prop :=
  (f &&& 3 = 1 ∧ 0 ≤ z ∧ (st = 0 ∨ st = 1)) ∨
  (f &&& 3 = 2 ∧ z ≤ 0 ∧ (st = 0 ∨ st = -1)) ∨
  (f &&& 3 = 3 ∧ ((st = 1 ∧ 0 ≤ z) ∨ (st = -1 ∧ z ≤ 0) ∨ (st = 0 ∧ z = 0)))

/-- The controller watches `n` functions, all on their sides. -/
structure Armed (e : Ctl K) (n : Nat) : Prop where
  clean : e.clean = false
  haveZf : e.haveZf = true
  pos : 0 < n
  zf1 : e.zf1.length = n
  flags : e.flags.length = n
  state : e.state.length = n
  haveRec : e.haveRec = e.flags.any (fun f => f &&& 4 != 0)
  side : ∀ i, i < n → Side (e.flags.getD i 0) (e.state.getD i 0) (e.zf1.getD i 0)

/-- Under `Side` a crossing is a real one: the values at both ends are on different sides of
zero (or both zero). -/
theorem Side.cross {f : Nat} {st : Int} {z1 z2 : K} (h : Side f st z1) (hx : xz f st z2 = true) :
    (0 ≤ z1 ∧ z2 ≤ 0) ∨ (z1 ≤ 0 ∧ 0 ≤ z2) := by
  unfold xz at hx
  rcases h with ⟨hf, hz, hs⟩ | ⟨hf, hz, hs⟩ | ⟨hf, hs⟩
  · simp only [hf] at hx
    rcases hs with rfl | rfl <;> simp at hx <;> left <;> constructor <;> order
  · simp only [hf] at hx
    rcases hs with rfl | rfl <;> simp at hx <;> right <;> constructor <;> order
  · simp only [hf] at hx
    unfold sgn at hx
    rcases hs with ⟨rfl, hz⟩ | ⟨rfl, hz⟩ | ⟨rfl, hz⟩
    · left; refine ⟨hz, ?_⟩
      by_contra hc; push Not at hc
      simp [hc, not_lt.2 hc.le] at hx
    · right; refine ⟨hz, ?_⟩
      by_contra hc; push Not at hc
      simp [hc] at hx
    · subst hz
      rcases le_total z2 0 with h | h
      · left; exact ⟨le_refl _, h⟩
      · right; exact ⟨le_refl _, h⟩

/-- Without a crossing the end value is on the side too. -/
theorem Side.stay {f : Nat} {st : Int} {z1 z2 : K} (h : Side f st z1) (hx : xz f st z2 = false) :
    Side f st z2 := by
  unfold xz at hx
  unfold Side
  rcases h with ⟨hf, hz, hs⟩ | ⟨hf, hz, hs⟩ | ⟨hf, hs⟩
  · left
    simp only [hf] at hx
    refine ⟨hf, ?_, hs⟩
    rcases hs with rfl | rfl <;> simp at hx <;> order
  · right; left
    simp only [hf] at hx
    refine ⟨hf, ?_, hs⟩
    rcases hs with rfl | rfl <;> simp at hx <;> order
  · right; right
    simp only [hf] at hx
    refine ⟨hf, ?_⟩
    unfold sgn at hx
    simp only [Nat.reduceEqDiff, if_false, if_true, bne_eq_false_iff_eq] at hx
    rcases lt_trichotomy z2 0 with h | h | h
    · rw [if_pos h] at hx; right; left; exact ⟨hx.symm, h.le⟩
    · subst h; simp at hx; right; right; exact ⟨hx.symm, rfl⟩
    · rw [if_neg (not_lt.2 h.le), if_pos h] at hx; left; exact ⟨hx.symm, h.le⟩

/-- Zero is on every side. -/
theorem Side.zero {f : Nat} {st : Int} {a : K} (ha : Side f st a) : Side f st (0 : K) := by
  unfold Side at *
  rcases ha with ⟨hf, _, hs⟩ | ⟨hf, _, hs⟩ | ⟨hf, hs⟩
  · left; exact ⟨hf, le_refl _, hs⟩
  · right; left; exact ⟨hf, le_refl _, hs⟩
  · right; right
    refine ⟨hf, ?_⟩
    rcases hs with ⟨h, _⟩ | ⟨h, _⟩ | ⟨h, _⟩
    · left; exact ⟨h, le_refl _⟩
    · right; left; exact ⟨h, le_refl _⟩
    · right; right; exact ⟨h, rfl⟩

theorem Side.sFlag {f : Nat} {z : K} (h : f &&& 3 ≠ 0) (h1 : f &&& 3 = 1 → 0 ≤ z)
    (h2 : f &&& 3 = 2 → z ≤ 0) : Side f (sFlag z f) z := by
  have h3 : f &&& 3 ≤ 3 := Nat.and_le_right
  have h4 : f &&& 3 = 1 ∨ f &&& 3 = 2 ∨ f &&& 3 = 3 := by omega
  unfold Side Event.sFlag
  rcases h4 with h4 | h4 | h4
  · left; refine ⟨h4, h1 h4, ?_⟩
    simp only [h4, if_true]; split <;> simp
  · right; left; refine ⟨h4, h2 h4, ?_⟩
    simp only [h4]; simp only [Nat.reduceEqDiff, if_false, if_true]; split <;> simp
  · right; right; refine ⟨h4, ?_⟩
    simp only [h4, Nat.reduceEqDiff, if_false, if_true]
    unfold sgn
    rcases lt_trichotomy z 0 with h | h | h
    · rw [if_pos h]; right; left; exact ⟨rfl, h.le⟩
    · subst h; simp
    · rw [if_neg (not_lt.2 h.le), if_pos h]; left; exact ⟨rfl, h.le⟩

/-- The crossing parameter. -/
def tau (z1 z2 : K) : K := z1 / (z1 - z2)

end

section
variable {K V Q : Type} [Zero K] [One K] [Add K] [Sub K] [Mul K] [Divides K] [LT K] [LE K] [DecidableLT K] [DecidableLE K]
  [Add V] [SMul K V]

theorem crossed_eq {e : Ctl K} {n : Nat} (h1 : e.zf1.length = n) (h2 : e.zf2.length = n)
    (h3 : e.state.length = n) (h4 : e.flags.length = n) :
    e.crossed = .ok ((List.range n).filter
      (fun i => xz (e.flags.getD i 0) (e.state.getD i 0) (e.zf2.getD i 0))) := by
  unfold Ctl.crossed
  have := loop_post (lo := 0) (hi := e.zf1.length) (s := ([] : List Nat))
    (f := fun i (l : List Nat) => do
      let x2 ← at' e.zf2 i
      let st ← raw e.state i
      let f ← raw e.flags i
      (.ok (if xz f st x2 then l ++ [i] else l) : Res (List Nat)))
    (fun k l => l = (List.range k).filter
      (fun i => xz (e.flags.getD i 0) (e.state.getD i 0) (e.zf2.getD i 0)))
    (E := fun _ => False) (Nat.zero_le _) (by simp) (by
      rintro j l - hj rfl
      rw [at_getD (by omega) 0, raw_getD (by omega) 0, raw_getD (by omega) 0]
      simp only [bind_ok, post_ok]
      rw [List.range_succ, List.filter_append]
      split
      · rename_i hx; simp only [List.filter_cons, hx, List.filter_nil, if_true]
      · rename_i hx
        simp only [List.filter_cons, hx, List.filter_nil, Bool.false_eq_true, if_false,
          List.append_nil])
  rw [post_false_iff] at this
  obtain ⟨a, ha, hb⟩ := this
  rw [ha, hb, h1]

end

section
variable {K V Q : Type} [Zero K] [One K] [Add K] [Sub K] [Mul K] [Div K] [LinearOrder K] [Add V] [SMul K V]

/-- What the search for the earliest crossing returns. -/
theorem earliest_eq {e : Ctl K} {n : Nat} (h1 : e.zf1.length = n) (h2 : e.zf2.length = n)
    (L : List Nat) (hL : ∀ i ∈ L, i < n) :
    ((∃ i ∈ L, e.zf1.getD i 0 - e.zf2.getD i 0 = 0) ∧ e.earliest L = .error .divZero) ∨
    ((∀ i ∈ L, e.zf1.getD i 0 - e.zf2.getD i 0 ≠ 0) ∧ ∃ t o, e.earliest L = .ok (t, o) ∧
      (∀ i ∈ L, t ≤ tau (e.zf1.getD i 0) (e.zf2.getD i 0)) ∧
      ((o = none ∧ t = 1) ∨ ∃ i, o = some i ∧ i ∈ L ∧ t < 1 ∧
        t = tau (e.zf1.getD i 0) (e.zf2.getD i 0))) := by
  unfold Ctl.earliest
  have H : ∀ (L : List Nat) (s : K × Option Nat), (∀ i ∈ L, i < n) →
      ((∃ i ∈ L, e.zf1.getD i 0 - e.zf2.getD i 0 = 0) ∧
        L.foldlM (fun (s : K × Option Nat) i => do
          let zf1 ← at' e.zf1 i
          let zf2 ← at' e.zf2 i
          let t ← div zf1 (zf1 - zf2)
          (.ok (if t < s.1 then (t, some i) else s) : Res (K × Option Nat))) s = .error .divZero) ∨
      ((∀ i ∈ L, e.zf1.getD i 0 - e.zf2.getD i 0 ≠ 0) ∧ ∃ t o,
        L.foldlM (fun (s : K × Option Nat) i => do
          let zf1 ← at' e.zf1 i
          let zf2 ← at' e.zf2 i
          let t ← div zf1 (zf1 - zf2)
          (.ok (if t < s.1 then (t, some i) else s) : Res (K × Option Nat))) s = .ok (t, o) ∧
        (∀ i ∈ L, t ≤ tau (e.zf1.getD i 0) (e.zf2.getD i 0)) ∧
        t ≤ s.1 ∧
        ((o, t) = (s.2, s.1) ∨ ∃ i, o = some i ∧ i ∈ L ∧ t < s.1 ∧
          t = tau (e.zf1.getD i 0) (e.zf2.getD i 0))) := by
    intro L
    induction L with
    | nil =>
      intro s _
      right
      refine ⟨by simp, s.1, s.2, rfl, by simp, le_refl _, Or.inl rfl⟩
    | cons i L ih =>
      intro s hL
      have hi := hL i (by simp)
      rw [List.foldlM_cons, at_getD (by omega) 0, at_getD (by omega) 0]
      simp only [bind_ok]
      unfold div
      by_cases hz : e.zf1.getD i 0 - e.zf2.getD i 0 = 0
      · left
        refine ⟨⟨i, by simp, hz⟩, ?_⟩
        rw [if_pos hz]; rfl
      · rw [if_neg hz]
        simp only [bind_ok]
        obtain ⟨s', hs'⟩ : ∃ s' : K × Option Nat,
          (if e.zf1.getD i 0 / (e.zf1.getD i 0 - e.zf2.getD i 0) < s.1 then
            (e.zf1.getD i 0 / (e.zf1.getD i 0 - e.zf2.getD i 0), some i) else s) = s' := ⟨_, rfl⟩
        rw [hs']
        unfold div at ih
        rcases ih s' (fun j hj => hL j (by simp [hj])) with ⟨⟨j, hj, hz'⟩, hr⟩ | ⟨hne, t, o, hr, hmin, hle, ho⟩
        · left; exact ⟨⟨j, by simp [hj], hz'⟩, hr⟩
        · right
          refine ⟨?_, t, o, hr, ?_, ?_, ?_⟩
          · intro j hj
            rcases List.mem_cons.1 hj with rfl | hj
            · exact hz
            · exact hne j hj
          · intro j hj
            rcases List.mem_cons.1 hj with rfl | hj
            · refine le_trans hle ?_
              rw [← hs']; unfold tau
              split
              · exact le_refl _
              · rename_i h; exact not_lt.1 h
            · exact hmin j hj
          · refine le_trans hle ?_
            rw [← hs']
            split
            · rename_i h; exact h.le
            · exact le_refl _
          · split at hs'
            · rename_i hlt
              right
              rcases ho with ho | ⟨j, ho, hj, hlt', ht⟩
              · rw [← hs'] at ho
                simp only [Prod.mk.injEq] at ho
                refine ⟨i, ho.1, by simp, ?_, ?_⟩
                · rw [ho.2]; exact hlt
                · rw [ho.2]; rfl
              · refine ⟨j, ho, by simp [hj], ?_, ht⟩
                rw [← hs'] at hlt'
                exact lt_trans hlt' hlt
            · rw [← hs'] at ho
              rcases ho with ho | ⟨j, ho, hj, hlt', ht⟩
              · left; exact ho
              · right; exact ⟨j, ho, by simp [hj], hlt', ht⟩
  rcases H L (1, none) hL with h | ⟨hne, t, o, hr, hmin, hle, ho⟩
  · left; exact h
  · right
    refine ⟨hne, t, o, hr, hmin, ?_⟩
    rcases ho with ho | ho
    · left; simp only [Prod.mk.injEq] at ho; exact ho
    · right; exact ho

end

section
variable {K V Q : Type} [Zero K] [One K] [Add K] [Sub K] [Mul K] [Divides K] [LT K] [LE K] [DecidableLT K] [DecidableLE K]
  [Add V] [SMul K V]

/-- The loop that updates values and remembered signs after a switch. -/
theorem update_eq {e : Ctl K} {n : Nat} (h1 : e.zf1.length = n) (h2 : e.zf2.length = n)
    (h3 : e.state.length = n) (h4 : e.flags.length = n)
    (h5 : (∃ i, i < n ∧ e.flags.getD i 0 &&& 4 ≠ 0) → e.zfbuf.length = n)
    (tmin : K) (itmin : Nat) (cur : Int) :
    ∃ zf1 state, loop 0 e.zf1.length (e.updateOne tmin itmin cur) (e.zf1, e.state)
        = .ok (zf1, state) ∧ zf1.length = n ∧ state.length = n ∧ ∀ i, i < n →
      let f := e.flags.getD i 0
      (f &&& 4 ≠ 0 → zf1.getD i 0 = e.zfbuf.getD i 0 ∧
        state.getD i 0 = sFlag (e.zfbuf.getD i 0) f) ∧
      (f &&& 4 = 0 → zf1.getD i 0 = e.zf1.getD i 0 * (1 - tmin) + e.zf2.getD i 0 * tmin ∧
        state.getD i 0 = if i = itmin then
            (if f &&& 3 = 3 then cur
              else sFlag (e.zf1.getD i 0 * (1 - tmin) + e.zf2.getD i 0 * tmin) f)
          else e.state.getD i 0) := by
  have := loop_post (lo := 0) (hi := e.zf1.length) (s := (e.zf1, e.state))
    (f := e.updateOne tmin itmin cur)
    (fun k s => s.1.length = n ∧ s.2.length = n ∧
      (∀ i, k ≤ i → s.1.getD i 0 = e.zf1.getD i 0 ∧ s.2.getD i 0 = e.state.getD i 0) ∧
      ∀ i, i < k →
      let f := e.flags.getD i 0
      (f &&& 4 ≠ 0 → s.1.getD i 0 = e.zfbuf.getD i 0 ∧
        s.2.getD i 0 = sFlag (e.zfbuf.getD i 0) f) ∧
      (f &&& 4 = 0 → s.1.getD i 0 = e.zf1.getD i 0 * (1 - tmin) + e.zf2.getD i 0 * tmin ∧
        s.2.getD i 0 = if i = itmin then
            (if f &&& 3 = 3 then cur
              else sFlag (e.zf1.getD i 0 * (1 - tmin) + e.zf2.getD i 0 * tmin) f)
          else e.state.getD i 0))
    (E := fun _ => False) (Nat.zero_le _)
    ⟨h1, h3, fun _ _ => ⟨rfl, rfl⟩, fun i hi => absurd hi (Nat.not_lt_zero i)⟩ (by
      rintro j ⟨a, b⟩ - hj ⟨ha, hb, hge, hlt⟩
      simp only at ha hb hge hlt
      unfold Ctl.updateOne
      simp only
      rw [at_getD (by omega) 0, raw_getD (by omega) 0]
      simp only [bind_ok]
      have hja := (hge j (le_refl _)).1
      have hjb := (hge j (le_refl _)).2
      -- the remaining part once the new value and sign are known
      have fin : ∀ (z : K) (st : List Int) (hst : st.length = n)
          (hst1 : ∀ i, i ≠ j → st.getD i 0 = b.getD i 0)
          (hz : let f := e.flags.getD j 0
            (f &&& 4 ≠ 0 → z = e.zfbuf.getD j 0 ∧ st.getD j 0 = sFlag (e.zfbuf.getD j 0) f) ∧
            (f &&& 4 = 0 → z = e.zf1.getD j 0 * (1 - tmin) + e.zf2.getD j 0 * tmin ∧
              st.getD j 0 = if j = itmin then
                (if f &&& 3 = 3 then cur
                  else sFlag (e.zf1.getD j 0 * (1 - tmin) + e.zf2.getD j 0 * tmin) f)
              else e.state.getD j 0)),
          (a.set j z).length = n ∧ st.length = n ∧
          (∀ i, j + 1 ≤ i → (a.set j z).getD i 0 = e.zf1.getD i 0 ∧
            st.getD i 0 = e.state.getD i 0) ∧
          ∀ i, i < j + 1 →
          let f := e.flags.getD i 0
          (f &&& 4 ≠ 0 → (a.set j z).getD i 0 = e.zfbuf.getD i 0 ∧
            st.getD i 0 = sFlag (e.zfbuf.getD i 0) f) ∧
          (f &&& 4 = 0 → (a.set j z).getD i 0
              = e.zf1.getD i 0 * (1 - tmin) + e.zf2.getD i 0 * tmin ∧
            st.getD i 0 = if i = itmin then
                (if f &&& 3 = 3 then cur
                  else sFlag (e.zf1.getD i 0 * (1 - tmin) + e.zf2.getD i 0 * tmin) f)
              else e.state.getD i 0) := by
        intro z st hst hst1 hz
        refine ⟨by simpa using ha, hst, ?_, ?_⟩
        · intro i hi
          rw [getD_set (by omega), if_neg (by omega), hst1 i (by omega)]
          exact hge i (by omega)
        · intro i hi
          rw [getD_set (by omega)]
          by_cases hij : i = j
          · subst hij; simp only [if_true]; exact hz
          · rw [if_neg hij, hst1 i hij]; exact hlt i (by omega)
      by_cases hf : e.flags.getD j 0 &&& 4 = 0
      · have hb1 : (e.flags.getD j 0 &&& 4 != 0) = false := by rw [hf]; rfl
        simp only [hb1, Bool.false_eq_true, if_false]
        rw [at_getD (by omega) 0]
        simp only [bind_ok]
        rw [atSet_lt (by omega)]
        simp only [bind_ok]
        rw [hja]
        by_cases hji : j = itmin
        · rw [if_pos hji]
          by_cases hf3 : e.flags.getD j 0 &&& 3 = 3
          · rw [if_pos hf3, rawSet_lt (by omega)]
            simp only [bind_ok, post_ok]
            refine fin _ _ (by simpa using hb) (fun i hi => ?_) ⟨fun h => absurd hf h, fun _ => ⟨rfl, ?_⟩⟩
            · rw [getD_set (by omega), if_neg hi]
            · rw [getD_set (by omega), if_pos rfl, if_pos hji, if_pos hf3]
          · rw [if_neg hf3, rawSet_lt (by omega)]
            simp only [bind_ok, post_ok]
            refine fin _ _ (by simpa using hb) (fun i hi => ?_) ⟨fun h => absurd hf h, fun _ => ⟨rfl, ?_⟩⟩
            · rw [getD_set (by omega), if_neg hi]
            · rw [getD_set (by omega), if_pos rfl, if_pos hji, if_neg hf3]
        · rw [if_neg hji]
          simp only [bind_ok, post_ok]
          refine fin _ _ hb (fun _ _ => rfl) ⟨fun h => absurd hf h, fun _ => ⟨rfl, ?_⟩⟩
          rw [if_neg hji, hjb]
      · have hb1 : (e.flags.getD j 0 &&& 4 != 0) = true := bne_iff_ne.2 hf
        have hl := h5 ⟨j, by omega, hf⟩
        simp only [hb1, if_true]
        rw [at_getD (by omega) 0]
        simp only [bind_ok]
        rw [atSet_lt (by omega), rawSet_lt (by omega)]
        simp only [bind_ok, post_ok]
        refine fin _ _ (by simpa using hb) (fun i hi => ?_) ⟨fun _ => ⟨rfl, ?_⟩, fun h => absurd h hf⟩
        · rw [getD_set (by omega), if_neg hi]
        · rw [getD_set (by omega), if_pos rfl])
  rw [post_false_iff] at this
  obtain ⟨⟨zf1, state⟩, hr, ha, hb, _, hlt⟩ := this
  exact ⟨zf1, state, hr, ha, hb, fun i hi => hlt i (by omega)⟩

/-- The controller after a switch. -/
theorem afterSwitch_eq {e : Ctl K} {n : Nat} (r : EvRhs K V Q) (h1 : e.zf1.length = n)
    (h2 : e.zf2.length = n) (h3 : e.state.length = n) (h4 : e.flags.length = n)
    (h6 : e.haveRec = e.flags.any (fun f => f &&& 4 != 0))
    (hlen : ∀ q t x, (r.zeroFunctions q t x).length = n)
    (q : Q) (tmin : K) (i : Nat) (cur : Int) (x2 : V) (t2 : K) :
    ∃ e', e.afterSwitch r q tmin i cur x2 t2 = .ok e' ∧ e'.flags = e.flags ∧
      (e'.clean = e.clean ∧ e'.haveZf = e.haveZf ∧ e'.haveRec = e.haveRec) ∧
      e'.zf1.length = n ∧ e'.state.length = n ∧ ∀ j, j < n →
      let f := e.flags.getD j 0
      (f &&& 4 ≠ 0 → e'.zf1.getD j 0 = (r.zeroFunctions q t2 x2).getD j 0 ∧
        e'.state.getD j 0 = sFlag ((r.zeroFunctions q t2 x2).getD j 0) f) ∧
      (f &&& 4 = 0 → e'.zf1.getD j 0 = e.zf1.getD j 0 * (1 - tmin) + e.zf2.getD j 0 * tmin ∧
        e'.state.getD j 0 = if j = i then
            (if f &&& 3 = 3 then cur
              else sFlag (e.zf1.getD j 0 * (1 - tmin) + e.zf2.getD j 0 * tmin) f)
          else e.state.getD j 0) := by
  have hbuf : ∀ j, j < n → e.flags.getD j 0 &&& 4 ≠ 0 → e.haveRec = true := by
    intro j hj hf
    rw [h6, List.any_eq_true]
    refine ⟨e.flags.getD j 0, ?_, bne_iff_ne.2 hf⟩
    have hj' : j < e.flags.length := by omega
    rw [List.getD_eq_getElem?_getD, List.getElem?_eq_getElem hj']
    exact List.getElem_mem _
  unfold Ctl.afterSwitch
  obtain ⟨buf, hb⟩ : ∃ buf, (if e.haveRec then r.zeroFunctions q t2 x2 else e.zfbuf) = buf :=
    ⟨_, rfl⟩
  have hb' : ∀ j, j < n → e.flags.getD j 0 &&& 4 ≠ 0 → buf = r.zeroFunctions q t2 x2 := by
    intro j hj hf
    rw [← hb, if_pos (hbuf j hj hf)]
  simp only [hb]
  obtain ⟨zf1, state, hr, hl1, hl2, hall⟩ := update_eq (e := { e with zfbuf := buf }) (n := n)
    h1 h2 h3 h4 (by
      rintro ⟨j, hj, hf⟩
      simp only at hf ⊢
      rw [hb' j hj hf]; exact hlen _ _ _) tmin i cur
  simp only at hr hall
  rw [hr]
  simp only [bind_ok]
  refine ⟨_, rfl, rfl, ⟨rfl, rfl, rfl⟩, hl1, hl2, ?_⟩
  intro j hj
  obtain ⟨u1, u2⟩ := hall j hj
  refine ⟨fun hf => ?_, u2⟩
  have := u1 hf
  rw [hb' j hj hf] at this
  exact this

end

section
variable {K V Q : Type} [Field K] [LinearOrder K] [IsStrictOrderedRing K]
  [AddCommGroup V] [Module K V]

/-- The side is a convex set. -/
theorem Side.conv {f : Nat} {st : Int} {a b : K} (ha : Side f st a) (hb : Side f st b) {σ : K}
    (h0 : 0 ≤ σ) (h1 : σ ≤ 1) : Side f st ((1 - σ) * a + σ * b) := by
  have h1' : 0 ≤ 1 - σ := by linarith
  unfold Side at *
  rcases ha with ⟨hf, hz, hs⟩ | ⟨hf, hz, hs⟩ | ⟨hf, hs⟩
  · left
    rcases hb with ⟨_, hz2, _⟩ | ⟨hf2, _⟩ | ⟨hf2, _⟩ <;> try omega
    exact ⟨hf, by positivity, hs⟩
  · right; left
    rcases hb with ⟨hf2, _⟩ | ⟨_, hz2, _⟩ | ⟨hf2, _⟩ <;> try omega
    refine ⟨hf, ?_, hs⟩
    nlinarith [mul_nonneg h1' (neg_nonneg.2 hz), mul_nonneg h0 (neg_nonneg.2 hz2)]
  · right; right
    rcases hb with ⟨hf2, _⟩ | ⟨hf2, _⟩ | ⟨_, hs2⟩ <;> try omega
    refine ⟨hf, ?_⟩
    rcases hs with ⟨rfl, hz⟩ | ⟨rfl, hz⟩ | ⟨rfl, hz⟩
    · rcases hs2 with ⟨_, hz2⟩ | ⟨hs2, _⟩ | ⟨hs2, _⟩ <;> try (exact absurd hs2 (by decide))
      left; exact ⟨rfl, by positivity⟩
    · rcases hs2 with ⟨hs2, _⟩ | ⟨_, hz2⟩ | ⟨hs2, _⟩ <;> try (exact absurd hs2 (by decide))
      right; left
      refine ⟨rfl, ?_⟩
      nlinarith [mul_nonneg h1' (neg_nonneg.2 hz), mul_nonneg h0 (neg_nonneg.2 hz2)]
    · rcases hs2 with ⟨hs2, _⟩ | ⟨hs2, _⟩ | ⟨_, hz2⟩ <;> try (exact absurd hs2 (by decide))
      right; right; exact ⟨rfl, by rw [hz, hz2]; ring⟩

theorem tau_mem {z1 z2 : K} (h : (0 ≤ z1 ∧ z2 ≤ 0) ∨ (z1 ≤ 0 ∧ 0 ≤ z2)) (hne : z1 - z2 ≠ 0) :
    0 ≤ tau z1 z2 ∧ tau z1 z2 ≤ 1 ∧ (tau z1 z2 = 1 ↔ z2 = 0) ∧
      (1 - tau z1 z2) * z1 + tau z1 z2 * z2 = 0 := by
  unfold tau
  have e1 : z1 / (z1 - z2) = 1 ↔ z2 = 0 := by
    rw [div_eq_one_iff_eq hne]
    constructor
    · intro h; linarith
    · intro h; rw [h]; ring
  have e2 : (1 - z1 / (z1 - z2)) * z1 + z1 / (z1 - z2) * z2 = 0 := by
    field_simp; ring
  refine ⟨?_, ?_, e1, e2⟩
  · rcases h with ⟨a, b⟩ | ⟨a, b⟩
    · exact div_nonneg a (by linarith)
    · exact div_nonneg_of_nonpos a (by linarith)
  · rcases h with ⟨a, b⟩ | ⟨a, b⟩
    · have : 0 < z1 - z2 := lt_of_le_of_ne (by linarith) (Ne.symm hne)
      rw [div_le_one this]; linarith
    · have : z1 - z2 < 0 := lt_of_le_of_ne (by linarith) hne
      rw [div_le_one_of_neg this]; linarith

end

end Verif.Event
