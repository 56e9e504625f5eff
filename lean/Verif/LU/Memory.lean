import Verif.LU.Model
import Verif.Loop
import Mathlib.Algebra.BigOperators.Group.Finset.Basic
import Mathlib.Algebra.Order.BigOperators.Group.Finset

/-! # Packed storage represents a matrix (helper lemmas) -/

namespace Verif.LU

open Verif.Res Finset

variable {K : Type _}

/-- Envelope data as functions. -/
structure Sten where
  n : Nat
  p : Nat → Nat
  q : Nat → Nat
  s : Nat → Nat
  p_le : ∀ i, i < n → p i ≤ i
  q_le : ∀ i, i < n → q i ≤ i
  s_lt : ∀ i, i < n → s i < n

/-- address of row `i` -/
def aOf (d : Nat) (p : Nat → Nat) (i : Nat) : Nat := ∑ j ∈ range i, (j - p j + d)

theorem aOf_succ (d : Nat) (p : Nat → Nat) (i : Nat) :
    aOf d p (i + 1) = aOf d p i + (i - p i + d) := by
  simp [aOf, sum_range_succ]

theorem aOf_mono (d : Nat) (p : Nat → Nat) {i j : Nat} (h : i ≤ j) : aOf d p i ≤ aOf d p j := by
  unfold aOf
  exact sum_le_sum_of_subset (range_subset_range.2 h)

/-- The cells of different envelope positions differ. -/
theorem cell_inj {d : Nat} {p : Nat → Nat} {r c r' c' : Nat}
    (h1 : p r ≤ c) (h2 : c < r + d) (h1' : p r' ≤ c') (h2' : c' < r' + d)
    (hp : p r ≤ r) (hp' : p r' ≤ r')
    (h : aOf d p r + (c - p r) = aOf d p r' + (c' - p r')) : r = r' ∧ c = c' := by
  have hlt : ∀ a b x y, p a ≤ x → x < a + d → p a ≤ a → a < b →
      aOf d p a + (x - p a) < aOf d p b + (y - p b) := by
    intro a b x y hx hx' ha hab
    have := aOf_mono d p (show a + 1 ≤ b from hab)
    rw [aOf_succ] at this
    omega
  rcases Nat.lt_trichotomy r r' with hr | hr | hr
  · have := hlt r r' c c' h1 h2 hp hr; omega
  · subst hr; omega
  · have := hlt r' r c' c h1' h2' hp' hr; omega

/-- `st` has the shape given by `E`. -/
structure Shape (E : Sten) (st : Fact K) : Prop where
  p : st.p = (List.range E.n).map E.p
  q : st.q = (List.range E.n).map E.q
  s : st.s = (List.range E.n).map E.s
  al : st.al = (List.range (E.n + 1)).map (aOf 0 E.p)
  au : st.au = (List.range (E.n + 1)).map (aOf 1 E.q)
  l : st.l.length = aOf 0 E.p E.n
  u : st.u.length = aOf 1 E.q E.n

/-- `st` stores the values `M` (below the diagonal in `m_l`, the rest in `m_u`). -/
structure Rep (E : Sten) (f : Bool) (M : Nat → Nat → K) (st : Fact K) : Prop extends
    Shape E st where
  fact : st.factorized = f
  L : ∀ r c, r < E.n → c < r → E.p r ≤ c → st.l[aOf 0 E.p r + (c - E.p r)]? = some (M r c)
  U : ∀ r c, c < E.n → r ≤ c → E.q c ≤ r → st.u[aOf 1 E.q c + (r - E.q c)]? = some (M r c)

/-- Function update at one position. -/
def upd (M : Nat → Nat → K) (r c : Nat) (v : K) : Nat → Nat → K :=
  fun r' c' => if r' = r ∧ c' = c then v else M r' c'

@[simp] theorem upd_same (M : Nat → Nat → K) (r c : Nat) (v : K) : upd M r c v r c = v := by
  simp [upd]

theorem upd_upd (M : Nat → Nat → K) (r c : Nat) (v w : K) :
    upd (upd M r c v) r c w = upd M r c w := by
  funext a b; unfold upd; split <;> rfl

theorem upd_ne (M : Nat → Nat → K) {r c r' c' : Nat} (v : K) (h : ¬(r' = r ∧ c' = c)) :
    upd M r c v r' c' = M r' c' := by simp [upd, h]

variable {E : Sten} {f : Bool} {M : Nat → Nat → K} {st : Fact K}

theorem Shape.raw_p (h : Shape E st) {i : Nat} (hi : i < E.n) : raw st.p i = .ok (E.p i) := by
  rw [h.p]; exact raw_map_range hi

theorem Shape.raw_q (h : Shape E st) {i : Nat} (hi : i < E.n) : raw st.q i = .ok (E.q i) := by
  rw [h.q]; exact raw_map_range hi

theorem Shape.raw_s (h : Shape E st) {i : Nat} (hi : i < E.n) : raw st.s i = .ok (E.s i) := by
  rw [h.s]; exact raw_map_range hi

theorem Shape.len (h : Shape E st) : st.p.length = E.n := by rw [h.p]; simp

theorem Shape.maxpq (h : Shape E st) {r c : Nat} (hr : r < E.n) (hc : c < E.n) :
    maxpq st r c = .ok (max (E.p r) (E.q c)) := by
  unfold LU.maxpq
  rw [h.raw_p hr, h.raw_q hc]; rfl

theorem Shape.adrL (h : Shape E st) {r c : Nat} (hr : r < E.n) (hc : E.p r ≤ c) :
    adr st.al st.p r c = .ok (aOf 0 E.p r + (c - E.p r)) := by
  unfold adr
  rw [h.raw_p hr, h.al, raw_map_range (by omega)]
  simp only [bind_ok]
  rw [if_neg (by omega)]
  congr 1; omega

theorem Shape.adrU (h : Shape E st) {r c : Nat} (hc : c < E.n) (hr : E.q c ≤ r) :
    adr st.au st.q c r = .ok (aOf 1 E.q c + (r - E.q c)) := by
  unfold adr
  rw [h.raw_q hc, h.au, raw_map_range (by omega)]
  simp only [bind_ok]
  rw [if_neg (by omega)]
  congr 1; omega

theorem cellL_lt (E : Sten) {r c : Nat} (hr : r < E.n) (hc : c < r) (hp : E.p r ≤ c) :
    aOf 0 E.p r + (c - E.p r) < aOf 0 E.p E.n := by
  have := aOf_mono 0 E.p (show r + 1 ≤ E.n from hr)
  rw [aOf_succ] at this; omega

theorem cellU_lt (E : Sten) {r c : Nat} (hc : c < E.n) (hr : r ≤ c) (hq : E.q c ≤ r) :
    aOf 1 E.q c + (r - E.q c) < aOf 1 E.q E.n := by
  have := aOf_mono 1 E.q (show c + 1 ≤ E.n from hc)
  rw [aOf_succ] at this; omega

theorem Rep.rdL (h : Rep E f M st) {r c : Nat} (hr : r < E.n) (hc : c < r) (hp : E.p r ≤ c) :
    rdL st r c = .ok (M r c) := by
  unfold LU.rdL
  rw [h.toShape.adrL hr hp]
  exact raw_of_getElem? (h.L r c hr hc hp)

theorem Rep.rdU (h : Rep E f M st) {r c : Nat} (hc : c < E.n) (hr : r ≤ c) (hq : E.q c ≤ r) :
    rdU st r c = .ok (M r c) := by
  unfold LU.rdU
  rw [h.toShape.adrU hc hq]
  exact raw_of_getElem? (h.U r c hc hr hq)

theorem Rep.wrL (h : Rep E f M st) {r c : Nat} (hr : r < E.n) (hc : c < r) (hp : E.p r ≤ c)
    (v : K) : ∃ st', wrL st r c v = .ok st' ∧ Rep E f (upd M r c v) st' := by
  unfold LU.wrL
  rw [h.toShape.adrL hr hp]
  simp only [bind_ok, rawSet]
  rw [if_pos (by rw [h.l]; exact cellL_lt E hr hc hp)]
  refine ⟨_, rfl, ⟨⟨h.p, h.q, h.s, h.al, h.au, ?_, h.u⟩, h.fact, ?_, ?_⟩⟩
  · simp [h.l]
  · intro r' c' hr' hc' hp'
    simp only [List.getElem?_set]
    split
    · rename_i heq
      have := cell_inj (d := 0) hp (by omega) hp' (by omega) (E.p_le r hr) (E.p_le r' hr') heq
      obtain ⟨rfl, rfl⟩ := this
      rw [if_pos (by rw [h.l]; exact cellL_lt E hr hc hp)]; simp
    · rename_i heq
      rw [upd_ne _ _ (by rintro ⟨rfl, rfl⟩; exact heq rfl)]
      exact h.L r' c' hr' hc' hp'
  · intro r' c' hc' hr' hq'
    rw [upd_ne _ _ (by rintro ⟨rfl, rfl⟩; omega)]
    exact h.U r' c' hc' hr' hq'

theorem Rep.wrU (h : Rep E f M st) {r c : Nat} (hc : c < E.n) (hr : r ≤ c) (hq : E.q c ≤ r)
    (v : K) : ∃ st', wrU st r c v = .ok st' ∧ Rep E f (upd M r c v) st' := by
  unfold LU.wrU
  rw [h.toShape.adrU hc hq]
  simp only [bind_ok, rawSet]
  rw [if_pos (by rw [h.u]; exact cellU_lt E hc hr hq)]
  refine ⟨_, rfl, ⟨⟨h.p, h.q, h.s, h.al, h.au, h.l, ?_⟩, h.fact, ?_, ?_⟩⟩
  · simp [h.u]
  · intro r' c' hr' hc' hp'
    rw [upd_ne _ _ (by rintro ⟨rfl, rfl⟩; omega)]
    exact h.L r' c' hr' hc' hp'
  · intro r' c' hc' hr' hq'
    simp only [List.getElem?_set]
    split
    · rename_i heq
      have := cell_inj (d := 1) hq (by omega) hq' (by omega) (E.q_le c hc) (E.q_le c' hc') heq
      obtain ⟨rfl, rfl⟩ := this
      rw [if_pos (by rw [h.u]; exact cellU_lt E hc hr hq)]; simp
    · rename_i heq
      rw [upd_ne _ _ (by rintro ⟨rfl, rfl⟩; exact heq rfl)]
      exact h.U r' c' hc' hr' hq'

theorem Rep.congr (h : Rep E f M st) {M' : Nat → Nat → K}
    (hM : ∀ r c, r < E.n → c < E.n → (c < r ∧ E.p r ≤ c ∨ r ≤ c ∧ E.q c ≤ r) → M' r c = M r c) :
    Rep E f M' st where
  toShape := h.toShape
  fact := h.fact
  L := fun r c h1 h2 h3 => by rw [hM r c h1 (by omega) (.inl ⟨h2, h3⟩)]; exact h.L r c h1 h2 h3
  U := fun r c h1 h2 h3 => by rw [hM r c (by omega) h1 (.inr ⟨h2, h3⟩)]; exact h.U r c h1 h2 h3

end Verif.LU
