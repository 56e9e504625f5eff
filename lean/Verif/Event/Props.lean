import Verif.Event.Lemmas
import Verif.Witness
import Verif.RK.FixedProps
import Mathlib.Data.Rat.Defs
import Mathlib.Algebra.Order.Field.Rat
import Mathlib.Tactic.NormNum

/-! # Properties C42, C43: events -/

set_option linter.unusedSectionVars false
set_option linter.unusedSimpArgs false

namespace Verif.Event

open Verif.Res Verif.RK

section
variable {K V Q : Type} [Zero K] [One K] [Add K] [Sub K] [Mul K] [Div K] [LinearOrder K] [Add V] [SMul K V]

/-- After a switch, functions to be recomputed are on their sides. -/
def RecomputedOk (r : EvRhs K V Q) (flags : List Nat) (n : Nat) (q : Q) (t : K) (x : V) : Prop :=
  ∀ i, i < n → flags.getD i 0 &&& 4 ≠ 0 →
    (flags.getD i 0 &&& 3 = 1 → 0 ≤ (r.zeroFunctions q t x).getD i 0) ∧
    (flags.getD i 0 &&& 3 = 2 → (r.zeroFunctions q t x).getD i 0 ≤ 0)

/-- Function `i` ends the step beyond its side: for a one-sided function that was off zero, at or
beyond zero; for one that stood at zero, beyond zero; for a two-sided function, with another sign
than remembered. -/
def Crosses (f : Nat) (st : Int) (z : K) : Prop :=
  (f &&& 3 = 1 ∧ ((st = 1 ∧ z ≤ 0) ∨ (st = 0 ∧ z < 0))) ∨
  (f &&& 3 = 2 ∧ ((st = -1 ∧ 0 ≤ z) ∨ (st = 0 ∧ 0 < z))) ∨
  (f &&& 3 = 3 ∧ ¬ ((z < 0 ∧ st = -1) ∨ (z = 0 ∧ st = 0) ∨ (0 < z ∧ st = 1)))

theorem xz_iff (f : Nat) (st : Int) (z : K) : xz f st z = true ↔ Crosses f st z := by
  unfold xz Crosses
  have h3 : f &&& 3 ≤ 3 := Nat.and_le_right
  have h4 : f &&& 3 = 0 ∨ f &&& 3 = 1 ∨ f &&& 3 = 2 ∨ f &&& 3 = 3 := by omega
  rcases h4 with h4 | h4 | h4 | h4
  · rw [if_neg (by omega), if_neg (by omega), if_neg (by omega)]
    constructor
    · intro h; cases h
    · rintro (⟨h, _⟩ | ⟨h, _⟩ | ⟨h, _⟩) <;> omega
  · rw [if_neg (by omega), if_pos h4, Bool.or_eq_true, Bool.and_eq_true, Bool.and_eq_true,
      beq_iff_eq, beq_iff_eq, decide_eq_true_iff, decide_eq_true_iff]
    constructor
    · intro h; exact Or.inl ⟨h4, h⟩
    · rintro (⟨_, h⟩ | ⟨h, _⟩ | ⟨h, _⟩)
      · exact h
      · omega
      · omega
  · rw [if_pos h4, Bool.or_eq_true, Bool.and_eq_true, Bool.and_eq_true,
      beq_iff_eq, beq_iff_eq, decide_eq_true_iff, decide_eq_true_iff]
    constructor
    · intro h; exact Or.inr (Or.inl ⟨h4, h⟩)
    · rintro (⟨h, _⟩ | ⟨_, h⟩ | ⟨h, _⟩)
      · omega
      · exact h
      · omega
  · rw [if_neg (by omega), if_neg (by omega), if_pos h4, bne_iff_ne]
    have key : sgn z ≠ st ↔ ¬ ((z < 0 ∧ st = -1) ∨ (z = 0 ∧ st = 0) ∨ (0 < z ∧ st = 1)) := by
      unfold sgn
      rcases lt_trichotomy z 0 with h | h | h
      · rw [if_pos h]
        simp only [h, h.ne, not_lt.2 h.le, true_and, false_and, or_false, ne_eq, eq_comm]
      · subst h
        simp only [lt_irrefl, if_false, true_and, false_and, or_false, false_or, ne_eq, eq_comm]
      · rw [if_neg (not_lt.2 h.le), if_pos h]
        simp only [h, h.ne', not_lt.2 h.le, true_and, false_and, false_or, ne_eq, eq_comm]
    rw [key]
    constructor
    · intro h; exact Or.inr (Or.inr ⟨h4, h⟩)
    · rintro (⟨h, _⟩ | ⟨h, _⟩ | ⟨_, h⟩)
      · omega
      · omega
      · exact h

end

section
variable {K V Q : Type} [Field K] [LinearOrder K] [IsStrictOrderedRing K]
  [AddCommGroup V] [Module K V]

/-- The possible results of `atStepEnd` on an armed controller. `z1`, `z2` are the values of the
event functions at both ends of the step. -/
inductive Outcome (r : EvRhs K V Q) (n : Nat) (e : Ctl K) (q : Q) (x1 x2 : V) (t2 : K)
    (z1 z2 : Nat → K) : Res ((Ctl K × Q) × V × K × Trunc) → Prop
  /-- no crossing: nothing is changed -/
  | quiet (e' : Ctl K)
      (h1 : ∀ i, i < n → ¬ Crosses (e.flags.getD i 0) (e.state.getD i 0) (z2 i))
      (h2 : Armed e' n) (h3 : e'.zf1 = r.zeroFunctions q t2 x2) (h4 : e'.flags = e.flags)
      (h5 : e'.state = e.state) :
      Outcome r n e q x1 x2 t2 z1 z2 (.ok ((e', q), x2, t2, Trunc.none))
  /-- the step is cut at the earliest crossing `τ` of the linear interpolants -/
  | event (e' : Ctl K) (i : Nat) (τ : K) (q' : Q) (y : V)
      (h1 : i < n) (h2 : Crosses (e.flags.getD i 0) (e.state.getD i 0) (z2 i))
      (h3 : 0 ≤ τ) (h4 : τ < 1)
      (h5 : (1 - τ) * z1 i + τ * z2 i = 0)
      (h6 : ∀ j, j < n → ∀ σ, 0 ≤ σ → σ ≤ τ →
        Side (e.flags.getD j 0) (e.state.getD j 0) ((1 - σ) * z1 j + σ * z2 j))
      (h7 : r.switchPhaseState q ((List.replicate n 0).set i (sgn (z2 i)))
        (e.t1 + τ * (t2 - e.t1)) ((1 - τ) • x1 + τ • x2) = (q', y))
      (h8 : RecomputedOk r e.flags n q' (e.t1 + τ * (t2 - e.t1)) y → Armed e' n)
      (h9 : e'.flags = e.flags)
      (h10 : ∀ j, j < n → e.flags.getD j 0 &&& 4 = 0 →
        e'.zf1.getD j 0 = (1 - τ) * z1 j + τ * z2 j)
      (h11 : e'.zf1.length = n)
      (h12 : ∀ j, j < n → e.flags.getD j 0 &&& 4 ≠ 0 →
        e'.zf1.getD j 0 = (r.zeroFunctions q' (e.t1 + τ * (t2 - e.t1)) y).getD j 0 ∧
        e'.state.getD j 0 = sFlag (e'.zf1.getD j 0) (e.flags.getD j 0))
      (h13 : ∀ j, j < n → e.flags.getD j 0 &&& 4 = 0 → e'.state.getD j 0 =
        if j = i then (if e.flags.getD j 0 &&& 3 = 3 then sgn (z2 i) else 0)
        else e.state.getD j 0) :
      Outcome r n e q x1 x2 t2 z1 z2
        (.ok ((e', q'), y, e.t1 + τ * (t2 - e.t1), ⟨true, some i, sgn (z2 i)⟩))
  /-- division of zero by zero: a crossing function is zero at both ends -/
  | zeroByZero (i : Nat) (h1 : i < n)
      (h2 : Crosses (e.flags.getD i 0) (e.state.getD i 0) (z2 i)) (h3 : z1 i = 0)
      (h4 : z2 i = 0) :
      Outcome r n e q x1 x2 t2 z1 z2 (.error .divZero)
  /-- every crossing function ends the step exactly at zero: the code throws -/
  | landing (i : Nat) (h1 : i < n)
      (h2 : Crosses (e.flags.getD i 0) (e.state.getD i 0) (z2 i))
      (h3 : ∀ j, j < n → Crosses (e.flags.getD j 0) (e.state.getD j 0) (z2 j) →
        z2 j = 0 ∧ z1 j ≠ 0) :
      Outcome r n e q x1 x2 t2 z1 z2 (.error (.exc "out_of_range"))

/-- C42 for functions that are on their sides at step start: the result of `atStepEnd` is one of
those listed in `Outcome`. Missing with respect to C42: a step that ends exactly at a zero throws
(see `C42_landing_false`), and functions that start beyond their side (see `C42_time_false`). -/
theorem C42_partial (r : EvRhs K V Q) (n : Nat)
    (hlen : ∀ q t x, (r.zeroFunctions q t x).length = n) (q : Q) (e : Ctl K) (he : Armed e n)
    (x1 x2 : V) (t2 : K) :
    Outcome r n e q x1 x2 t2 (fun i => e.zf1.getD i 0)
      (fun i => (r.zeroFunctions q t2 x2).getD i 0) (e.atStepEnd r q x1 x2 t2) := by
  obtain ⟨hclean, hhave, hpos, hzf1, hflags, hstate, hrec, hside⟩ := he
  have hl2 := hlen q t2 x2
  generalize hzf2 : r.zeroFunctions q t2 x2 = zf2 at hl2
  obtain ⟨e2, he2⟩ : ∃ e2 : Ctl K, { e with zf2 := zf2 } = e2 := ⟨_, rfl⟩
  have p1 : e2.zf1 = e.zf1 := by rw [← he2]
  have p2 : e2.zf2 = zf2 := by rw [← he2]
  have p3 : e2.state = e.state := by rw [← he2]
  have p4 : e2.flags = e.flags := by rw [← he2]
  have p5 : e2.t1 = e.t1 := by rw [← he2]
  have p6 : e2.haveRec = e.haveRec := by rw [← he2]
  have p7 : e2.clean = e.clean := by rw [← he2]
  have p8 : e2.haveZf = e.haveZf := by rw [← he2]
  have hcr := crossed_eq (e := e2) (n := n) (by rw [p1]; exact hzf1) (by rw [p2]; exact hl2)
    (by rw [p3]; exact hstate) (by rw [p4]; exact hflags)
  rw [p2, p3, p4] at hcr
  generalize hL : (List.range n).filter
    (fun i => xz (e.flags.getD i 0) (e.state.getD i 0) (zf2.getD i 0)) = L at hcr
  have hmem : ∀ i, i ∈ L ↔ i < n ∧ Crosses (e.flags.getD i 0) (e.state.getD i 0) (zf2.getD i 0) := by
    intro i
    rw [← hL, List.mem_filter, List.mem_range, xz_iff]
  unfold Ctl.atStepEnd
  rw [if_neg (by rw [hhave]; decide)]
  simp only [hzf2, he2]
  rw [hcr]
  simp only [bind_ok]
  cases hLe : L with
  | nil =>
    simp only [List.isEmpty_nil, if_true]
    have hno : ∀ i, i < n → ¬ Crosses (e.flags.getD i 0) (e.state.getD i 0) (zf2.getD i 0) := by
      intro i hi hc
      have := (hmem i).2 ⟨hi, hc⟩
      rw [hLe] at this; simp at this
    refine Outcome.quiet _ hno ?_ (by simp [p2, hzf2]) (by simp [p4]) (by simp [p3])
    refine ⟨by simp [p7, hclean], by simp [p8, hhave], hpos, by simp [p2, hl2], by simp [p4, hflags],
      by simp [p3, hstate], by simp [p6, p4, hrec], ?_⟩
    intro i hi
    simp only [p2, p3, p4]
    refine (hside i hi).stay ?_
    rw [Bool.eq_false_iff]
    intro hc
    exact hno i hi ((xz_iff _ _ _).1 hc)
  | cons i0 L' =>
    rw [← hLe]
    have hne : L.isEmpty = false := by rw [hLe]; rfl
    have hi0 : i0 ∈ L := by rw [hLe]; simp
    simp only [hne, Bool.false_eq_true, if_false]
    have hLn : ∀ i ∈ L, i < n := fun i hi => ((hmem i).1 hi).1
    have hopp : ∀ i ∈ L, (0 ≤ e.zf1.getD i 0 ∧ zf2.getD i 0 ≤ 0) ∨
        (e.zf1.getD i 0 ≤ 0 ∧ 0 ≤ zf2.getD i 0) := by
      intro i hi
      exact (hside i (hLn i hi)).cross ((xz_iff _ _ _).2 ((hmem i).1 hi).2)
    rcases earliest_eq (e := e2) (n := n) (by rw [p1]; exact hzf1) (by rw [p2]; exact hl2) L hLn
      with ⟨⟨i, hi, hz⟩, hr⟩ | ⟨hnz, t, o, hr, hmin, ho⟩
    · simp only [hr, bind_error]
      rw [p1, p2] at hz
      have hz0 : e.zf1.getD i 0 = 0 ∧ zf2.getD i 0 = 0 := by
        rcases hopp i hi with ⟨a, b⟩ | ⟨a, b⟩ <;> constructor <;> linarith
      exact Outcome.zeroByZero i (hLn i hi) ((hmem i).1 hi).2 hz0.1 hz0.2
    · rw [p1, p2] at hmin ho hnz
      simp only [hr, bind_ok]
      rcases ho with ⟨rfl, rfl⟩ | ⟨i, rfl, hi, ht1, ht⟩
      · refine Outcome.landing i0 (hLn i0 hi0) ((hmem i0).1 hi0).2 ?_
        intro j hj hc
        have hjL := (hmem j).2 ⟨hj, hc⟩
        obtain ⟨_, k2, k3, _⟩ := tau_mem (hopp j hjL) (hnz j hjL)
        have h0 := k3.1 (le_antisymm k2 (hmin j hjL))
        refine ⟨h0, fun h => hnz j hjL ?_⟩
        rw [h, h0]; ring
      · have hin := hLn i hi
        obtain ⟨k1, _, _, k4⟩ := tau_mem (hopp i hi) (hnz i hi)
        rw [← ht] at k1 k4
        simp only [p1, p2, p5]
        rw [at_getD (by omega) 0]
        simp only [bind_ok]
        rw [rawSet_lt (by rw [List.length_replicate, hzf1]; exact hin)]
        simp only [bind_ok]
        rw [hzf1, mul_comm (t2 - e.t1) t, add_comm (t • x2) ((1 - t) • x1)]
        obtain ⟨⟨q', y⟩, hsw⟩ : ∃ p, r.switchPhaseState q
          ((List.replicate n 0).set i (sgn (zf2.getD i 0))) (e.t1 + t * (t2 - e.t1))
          ((1 - t) • x1 + t • x2) = p := ⟨_, rfl⟩
        simp only [hsw]
        obtain ⟨e', hup, q1, q2, hl1, hls, hall⟩ := afterSwitch_eq (e := e2) (n := n) r
          (by rw [p1]; exact hzf1) (by rw [p2]; exact hl2) (by rw [p3]; exact hstate)
          (by rw [p4]; exact hflags) (by rw [p6, p4]; exact hrec) hlen q' t i (sgn (zf2.getD i 0))
          y (e.t1 + t * (t2 - e.t1))
        rw [hup]
        simp only [bind_ok]
        rw [p1, p2, p3, p4] at hall
        have s4 : e'.flags = e.flags := by rw [q1, p4]
        have hconv : ∀ j, j < n → ∀ σ, 0 ≤ σ → σ ≤ t →
            Side (e.flags.getD j 0) (e.state.getD j 0)
              ((1 - σ) * e.zf1.getD j 0 + σ * zf2.getD j 0) := by
          intro j hj σ h0 h1
          by_cases hjL : j ∈ L
          · obtain ⟨j1, j2, j3, j4⟩ := tau_mem (hopp j hjL) (hnz j hjL)
            have hσ : σ ≤ tau (e.zf1.getD j 0) (zf2.getD j 0) := le_trans h1 (hmin j hjL)
            have hsj := hside j hj
            generalize tau (e.zf1.getD j 0) (zf2.getD j 0) = w at *
            generalize e.zf1.getD j 0 = a at *
            generalize zf2.getD j 0 = b at *
            by_cases hw : w = 0
            · have : σ = 0 := by linarith
              rw [this]
              have : (1 - 0) * a + 0 * b = a := by ring
              rw [this]
              exact hsj
            · have hwp : 0 < w := lt_of_le_of_ne j1 (Ne.symm hw)
              have hs := hsj.conv hsj.zero (σ := σ / w) (by positivity)
                ((div_le_one hwp).2 hσ)
              have he : (1 - σ) * a + σ * b = (1 - σ / w) * a + σ / w * 0 := by
                field_simp
                linear_combination σ * j4
              rw [he]; exact hs
          · refine (hside j hj).conv ((hside j hj).stay ?_) h0 (by linarith)
            rw [Bool.eq_false_iff]
            intro hc
            exact hjL ((hmem j).2 ⟨hj, (xz_iff _ _ _).1 hc⟩)
        refine Outcome.event _ i t q' y hin ((hmem i).1 hi).2 k1 ht1 k4 hconv hsw ?_ s4
          ?_ hl1 (fun j hj hf => ?_) (fun j hj hf => ?_)
        · intro hok
          refine ⟨by rw [q2.1, p7, hclean], by rw [q2.2.1, p8, hhave], hpos, hl1, by rw [s4, hflags],
            hls, by rw [q2.2.2, s4, p6, hrec], ?_⟩
          intro j hj
          simp only [s4]
          obtain ⟨u1, u2⟩ := hall j hj
          have hf0 : e.flags.getD j 0 &&& 3 ≠ 0 := by
            rcases hside j hj with ⟨h, _⟩ | ⟨h, _⟩ | ⟨h, _⟩ <;> omega
          by_cases hf : e.flags.getD j 0 &&& 4 = 0
          · obtain ⟨v1, v2⟩ := u2 hf
            have hint : e.zf1.getD j 0 * (1 - t) + zf2.getD j 0 * t
                = (1 - t) * e.zf1.getD j 0 + t * zf2.getD j 0 := by ring
            rw [v1, v2, hint]
            by_cases hji : j = i
            · subst hji
              simp only [if_true]
              have hz : (1 - t) * e.zf1.getD j 0 + t * zf2.getD j 0 = 0 := k4
              rw [hz]
              by_cases hf3 : e.flags.getD j 0 &&& 3 = 3
              · rw [if_pos hf3]
                right; right
                refine ⟨hf3, ?_⟩
                unfold sgn
                split
                · right; left; exact ⟨rfl, le_refl _⟩
                · split
                  · left; exact ⟨rfl, le_refl _⟩
                  · right; right; exact ⟨rfl, rfl⟩
              · rw [if_neg hf3]
                exact Side.sFlag hf0 (fun _ => le_refl _) (fun _ => le_refl _)
            · rw [if_neg hji]
              exact hconv j hj t k1 (le_refl _)
          · obtain ⟨v1, v2⟩ := u1 hf
            rw [v1, v2]
            obtain ⟨w1, w2⟩ := hok j hj hf
            exact Side.sFlag hf0 w1 w2
        · intro j hj hf
          rw [((hall j hj).2 hf).1]; ring
        · obtain ⟨v1, v2⟩ := (hall j hj).1 hf
          exact ⟨v1, by rw [v2, v1]⟩
        · rw [((hall j hj).2 hf).2]
          by_cases hji : j = i
          · subst hji
            rw [if_pos rfl, if_pos rfl]
            have hz : e.zf1.getD j 0 * (1 - t) + zf2.getD j 0 * t = 0 := by linear_combination k4
            rw [hz]
            congr 1
            unfold sFlag sgn
            split_ifs <;> simp_all
          · rw [if_neg hji, if_neg hji]

/-! ### Runs -/

/-- What a solver has between steps: controller, phase state, state, time. -/
structure Pt (K V Q : Type) where
  e : Ctl K
  q : Q
  x : V
  t : K

/-- One step of a solver with the controller; `x2`, `t2` is whatever the method proposes. -/
def Step (r : EvRhs K V Q) (p : Pt K V Q) (x2 : V) (t2 : K) (p' : Pt K V Q) (tr : Trunc) : Prop :=
  ∃ e1, p.e.atStepStart r p.q p.x p.t = .ok e1 ∧
    e1.atStepEnd r p.q p.x x2 t2 = .ok ((p'.e, p'.q), p'.x, p'.t, tr)

/-- Event functions of a right-hand side with `n > 0` of them at a starting point: watched ones
only, one-directional ones on the side from which they are watched. -/
structure StartOk (r : EvRhs K V Q) (n : Nat) (q : Q) (x : V) (t : K) : Prop where
  pos : 0 < n
  count : r.zeroFuncCount q = n
  flags : (r.zeroFuncFlags q).length = n
  side : ∀ i, i < n → (r.zeroFuncFlags q).getD i 0 &&& 3 ≠ 0 ∧
    ((r.zeroFuncFlags q).getD i 0 &&& 3 = 1 → 0 ≤ (r.zeroFunctions q t x).getD i 0) ∧
    ((r.zeroFuncFlags q).getD i 0 &&& 3 = 2 → (r.zeroFunctions q t x).getD i 0 ≤ 0)

theorem atStepStart_clean (r : EvRhs K V Q) {n : Nat} (q : Q) (e : Ctl K) (x : V) (t : K)
    (hc : e.clean = true) (hpos : 0 < n) (hcount : r.zeroFuncCount q = n)
    (hflags : (r.zeroFuncFlags q).length = n) (hlen : (r.zeroFunctions q t x).length = n) :
    ∃ e', e.atStepStart r q x t = .ok e' ∧ e'.clean = false ∧ e'.haveZf = true ∧
      e'.zf1 = r.zeroFunctions q t x ∧ e'.flags = r.zeroFuncFlags q ∧ e'.state.length = n ∧
      e'.haveRec = (r.zeroFuncFlags q).any (fun f => f &&& 4 != 0) ∧ e'.t1 = t ∧
      ∀ i, i < n → e'.state.getD i 0
        = sFlag ((r.zeroFunctions q t x).getD i 0) ((r.zeroFuncFlags q).getD i 0) := by
  unfold Ctl.atStepStart
  rw [if_pos hc]
  have hz : (Ctl.initClean r q { e with t1 := t }).haveZf = true := by
    simp [Ctl.initClean, hcount, hpos]
  simp only
  rw [if_pos hz]
  have hf : (Ctl.initClean r q { e with t1 := t }).flags = r.zeroFuncFlags q := rfl
  have hs : (Ctl.initClean r q { e with t1 := t }).state = List.replicate n 0 := by
    simp [Ctl.initClean, hcount]
  have := loop_post (lo := 0) (hi := (r.zeroFunctions q t x).length)
    (s := List.replicate n (0 : Int))
    (f := fun i (st : List Int) => do
        let z ← at' (r.zeroFunctions q t x) i
        let f ← raw (r.zeroFuncFlags q) i
        rawSet st i (sFlag z f))
    (fun k st => st.length = n ∧ ∀ i, i < k → st.getD i 0
        = sFlag ((r.zeroFunctions q t x).getD i 0) ((r.zeroFuncFlags q).getD i 0))
    (E := fun _ => False) (Nat.zero_le _) ⟨by simp, fun i hi => absurd hi (Nat.not_lt_zero i)⟩ (by
      rintro j st - hj ⟨hl, hst⟩
      rw [at_getD hj 0, raw_getD (by omega) 0]
      simp only [bind_ok]
      rw [rawSet_lt (by omega), post_ok]
      refine ⟨by simpa using hl, ?_⟩
      intro i hi
      rw [getD_set (by omega)]
      by_cases hij : i = j
      · rw [if_pos hij, hij]
      · rw [if_neg hij]; exact hst i (by omega))
  rw [post_false_iff] at this
  obtain ⟨st, h1, h2, h3⟩ := this
  rw [hf, hs, h1]
  simp only [bind_ok]
  exact ⟨_, rfl, rfl, hz, rfl, rfl, h2, rfl, rfl, fun i hi => h3 i (by omega)⟩

theorem atStepStart_dirty (r : EvRhs K V Q) (q : Q) (e : Ctl K) (x : V) (t : K)
    (hc : e.clean = false) : e.atStepStart r q x t = .ok { e with t1 := t } := by
  unfold Ctl.atStepStart
  simp [hc]

/-- The controller is armed when the step begins. -/
theorem atStepStart_armed (r : EvRhs K V Q) {n : Nat}
    (hlen : ∀ q t x, (r.zeroFunctions q t x).length = n) (q : Q) (e : Ctl K) (x : V) (t : K)
    (h : (e.clean = true ∧ StartOk r n q x t) ∨ Armed e n) :
    ∃ e', e.atStepStart r q x t = .ok e' ∧ Armed e' n ∧ e'.t1 = t := by
  rcases h with ⟨hc, hs⟩ | ha
  · obtain ⟨e', h1, h2, h3, h4, h5, h6, h7, h8, h9⟩ := atStepStart_clean r q e x t hc hs.pos
      hs.count hs.flags (hlen _ _ _)
    refine ⟨e', h1, ⟨h2, h3, hs.pos, by rw [h4]; exact hlen _ _ _, by rw [h5]; exact hs.flags, h6,
      by rw [h7, h5], ?_⟩, h8⟩
    intro i hi
    rw [h4, h5, h9 i hi]
    obtain ⟨a, b, c⟩ := hs.side i hi
    exact Side.sFlag a b c
  · refine ⟨_, atStepStart_dirty r q e x t ha.clean, ?_, rfl⟩
    exact ⟨ha.clean, ha.haveZf, ha.pos, ha.zf1, ha.flags, ha.state, ha.haveRec, ha.side⟩

/-- States of a solver before a step that can be reached from a start (clean controller, one-sided
functions on their sides) or restart (`setInitialState`, which resets the controller) by steps that go forward in time, for a right-hand side whose
recomputed functions are on their sides after every switch. -/
inductive Reach (r : EvRhs K V Q) (n : Nat) : Pt K V Q → Prop
  | start (p : Pt K V Q) (h1 : p.e.clean = true) (h2 : StartOk r n p.q p.x p.t) : Reach r n p
  | restart (p : Pt K V Q) (q : Q) (x : V) (t : K) (h1 : Reach r n p) (h2 : StartOk r n q x t) :
      Reach r n ⟨p.e.reset, q, x, t⟩
  | step (p p' : Pt K V Q) (x2 : V) (t2 : K) (tr : Trunc) (h1 : Reach r n p) (h2 : p.t ≤ t2)
      (h3 : Step r p x2 t2 p' tr)
      (h4 : tr.truncated = true → RecomputedOk r p'.e.flags n p'.q p'.t p'.x) : Reach r n p'

theorem Reach.inv {r : EvRhs K V Q} {n : Nat}
    (hlen : ∀ q t x, (r.zeroFunctions q t x).length = n) {p : Pt K V Q} (h : Reach r n p) :
    (p.e.clean = true ∧ StartOk r n p.q p.x p.t) ∨ Armed p.e n := by
  induction h with
  | start p h1 h2 => exact .inl ⟨h1, h2⟩
  | restart p q x t _ h2 _ => exact .inl ⟨rfl, h2⟩
  | step p p' x2 t2 tr _ h2 h3 h4 ih =>
    right
    obtain ⟨e1, hs, he⟩ := h3
    obtain ⟨e', h5, h6, h7⟩ := atStepStart_armed r hlen p.q p.e p.x p.t ih
    rw [h5] at hs
    cases hs
    have ho := C42_partial r n hlen p.q e1 h6 p.x x2 t2
    rw [he] at ho
    obtain ⟨pe, pq, px, pt⟩ := p'
    cases ho with
    | quiet _ _ ha => exact ha
    | event e' i τ q' y h1 h2 h3 h8 h5 h6 h7 h9 h10 =>
      refine h9 ?_
      have := h4 rfl
      simp only at this
      rw [h10] at this
      exact this

/-- C42 along a run: every step from a reachable state either is returned as proposed, or is cut
at a time between its ends, at the earliest zero of the linear interpolants of the event
functions, with the state handed to `switchPhaseState` interpolated there; or the step faults in
one of the two ways listed in `Outcome`. -/
theorem C42_run_partial (r : EvRhs K V Q) (n : Nat)
    (hlen : ∀ q t x, (r.zeroFunctions q t x).length = n) (p : Pt K V Q) (hp : Reach r n p)
    (x2 : V) (t2 : K) :
    ∃ e, p.e.atStepStart r p.q p.x p.t = .ok e ∧ Armed e n ∧ e.t1 = p.t ∧
      Outcome r n e p.q p.x x2 t2 (fun i => e.zf1.getD i 0)
        (fun i => (r.zeroFunctions p.q t2 x2).getD i 0) (e.atStepEnd r p.q p.x x2 t2) := by
  obtain ⟨e, h1, h2, h3⟩ := atStepStart_armed r hlen p.q p.e p.x p.t (hp.inv hlen)
  exact ⟨e, h1, h2, h3, C42_partial r n hlen p.q e h2 p.x x2 t2⟩

/-- C42, restarts: after `reset`, whatever happened before, the first step is judged by the values
of the event functions at its own start. -/
theorem C42_restart (r : EvRhs K V Q) (n : Nat) (q : Q) (e : Ctl K) (x : V) (t : K)
    (h : StartOk r n q x t) (hlen : ∀ q t x, (r.zeroFunctions q t x).length = n) :
    ∃ e', e.reset.atStepStart r q x t = .ok e' ∧ Armed e' n ∧ e'.t1 = t ∧
      e'.zf1 = r.zeroFunctions q t x ∧ e'.flags = r.zeroFuncFlags q := by
  obtain ⟨e1, a1, _, _, a4, a5, _⟩ := atStepStart_clean r q e.reset x t rfl h.pos h.count h.flags
    (hlen _ _ _)
  obtain ⟨e2, b1, b2, b3⟩ := atStepStart_armed r hlen q e.reset x t (.inl ⟨rfl, h⟩)
  rw [a1] at b1
  cases b1
  exact ⟨e1, a1, b2, b3, a4, a5⟩

/-- Time never goes back, nor beyond the proposed end of the step; a cut step ends strictly before
that (if the proposed step is not empty). -/
theorem C42_time_partial (r : EvRhs K V Q) (n : Nat)
    (hlen : ∀ q t x, (r.zeroFunctions q t x).length = n) (p p' : Pt K V Q) (hp : Reach r n p)
    (x2 : V) (t2 : K) (tr : Trunc) (ht : p.t < t2) (hs : Step r p x2 t2 p' tr) :
    p.t ≤ p'.t ∧ p'.t ≤ t2 ∧ (tr.truncated = true ↔ p'.t < t2) := by
  obtain ⟨e, h1, h2, h3, ho⟩ := C42_run_partial r n hlen p hp x2 t2
  obtain ⟨e1, hs1, he⟩ := hs
  rw [h1] at hs1
  cases hs1
  rw [he] at ho
  obtain ⟨pe, pq, px, pt⟩ := p'
  cases ho with
  | quiet e' a1 a2 => simp [Trunc.none, ht.le]
  | event e' i τ q' y a1 a2 a3 a4 =>
    show p.t ≤ e.t1 + τ * (t2 - e.t1) ∧ e.t1 + τ * (t2 - e.t1) ≤ t2 ∧
      (true = true ↔ e.t1 + τ * (t2 - e.t1) < t2)
    rw [h3]
    have hd : 0 < t2 - p.t := by linarith
    have m1 : 0 ≤ τ * (t2 - p.t) := by positivity
    have m2 : τ * (t2 - p.t) < t2 - p.t := by
      have := mul_lt_mul_of_pos_right a4 hd
      linarith
    refine ⟨by linarith, by linarith, fun _ => by linarith, fun _ => rfl⟩

/-- C43 for one step of a controller that has been started: if no function crosses with respect to
the remembered signs, the step is returned as it is. -/
theorem C43_step (r : EvRhs K V Q) (n : Nat) (q : Q) (e : Ctl K) (x1 x2 : V) (t2 : K)
    (h1 : e.haveZf = true) (h2 : e.zf1.length = n) (h3 : e.flags.length = n)
    (h4 : e.state.length = n) (hl : (r.zeroFunctions q t2 x2).length = n)
    (hno : ∀ i, i < n → ¬ Crosses (e.flags.getD i 0) (e.state.getD i 0)
      ((r.zeroFunctions q t2 x2).getD i 0)) :
    ∃ e', e.atStepEnd r q x1 x2 t2 = .ok ((e', q), x2, t2, Trunc.none) ∧ e'.clean = e.clean ∧
      e'.haveZf = true ∧ e'.zf1 = r.zeroFunctions q t2 x2 ∧ e'.flags = e.flags ∧
      e'.state = e.state := by
  have hcr := crossed_eq (e := { e with zf2 := r.zeroFunctions q t2 x2 }) (n := n) h2 hl h4 h3
  have hnil : (List.range n).filter (fun i => xz (e.flags.getD i 0) (e.state.getD i 0)
      ((r.zeroFunctions q t2 x2).getD i 0)) = [] := by
    rw [List.filter_eq_nil_iff]
    intro i hi hx
    exact hno i (List.mem_range.1 hi) ((xz_iff _ _ _).1 hx)
  simp only at hcr
  rw [hnil] at hcr
  unfold Ctl.atStepEnd
  rw [if_neg (by rw [h1]; decide)]
  simp only
  rw [hcr]
  simp only [bind_ok, List.isEmpty_nil, if_true]
  exact ⟨_, rfl, rfl, h1, rfl, rfl, rfl⟩

/-- `z` has, with respect to the starting value `z0`, not changed sign in the watched direction
(`z0` being on the side from which the function is watched). -/
def Keeps (f : Nat) (z0 z : K) : Prop :=
  (f &&& 3 = 1 → (0 < z0 ∧ 0 < z) ∨ (z0 = 0 ∧ 0 ≤ z)) ∧
  (f &&& 3 = 2 → (z0 < 0 ∧ z < 0) ∨ (z0 = 0 ∧ z ≤ 0)) ∧
  (f &&& 3 = 3 → (z0 < 0 ∧ z < 0) ∨ (z0 = 0 ∧ z = 0) ∨ (0 < z0 ∧ 0 < z))

theorem Keeps.not_crosses {f : Nat} {z0 z : K} (h : Keeps f z0 z) :
    ¬ Crosses f (sFlag z0 f) z := by
  obtain ⟨h1, h2, h3⟩ := h
  unfold Crosses sFlag
  rintro (⟨hf, h⟩ | ⟨hf, h⟩ | ⟨hf, h⟩)
  · rw [if_pos hf] at h
    rcases h1 hf with ⟨a, b⟩ | ⟨a, b⟩
    · rw [if_neg (not_le.2 a)] at h
      rcases h with ⟨_, h⟩ | ⟨h, _⟩
      · linarith
      · exact absurd h (by decide)
    · rw [if_pos a.le] at h
      rcases h with ⟨h, _⟩ | ⟨_, h⟩
      · exact absurd h (by decide)
      · linarith
  · rw [if_neg (by omega), if_pos hf] at h
    rcases h2 hf with ⟨a, b⟩ | ⟨a, b⟩
    · rw [if_neg (not_le.2 a)] at h
      rcases h with ⟨_, h⟩ | ⟨h, _⟩
      · linarith
      · exact absurd h (by decide)
    · rw [if_pos a.ge] at h
      rcases h with ⟨h, _⟩ | ⟨_, h⟩
      · exact absurd h (by decide)
      · linarith
  · rw [if_neg (by omega), if_neg (by omega), if_pos hf] at h
    refine h ?_
    unfold sgn
    rcases h3 hf with ⟨a, b⟩ | ⟨a, b⟩ | ⟨a, b⟩
    · left; exact ⟨b, by rw [if_pos a]⟩
    · right; left; exact ⟨b, by rw [a]; simp⟩
    · right; right; exact ⟨b, by rw [if_neg (not_lt.2 a.le), if_pos a]⟩

/-- States and proposed steps of a run. -/
def Chain (r : EvRhs K V Q) : Pt K V Q → List (V × K) → Pt K V Q → Prop
  | p, [], p' => p' = p
  | p, (x2, t2) :: l, p' => ∃ p1, Step r p x2 t2 p1 Trunc.none ∧ p1.x = x2 ∧ p1.t = t2 ∧
      p1.q = p.q ∧ Chain r p1 l p'

theorem chain_dirty (r : EvRhs K V Q) (n : Nat) (z0 : Nat → K)
    (hlen : ∀ q t x, (r.zeroFunctions q t x).length = n) (l : List (V × K)) :
    ∀ p : Pt K V Q, p.e.clean = false → p.e.haveZf = true → p.e.zf1.length = n →
      p.e.flags.length = n → p.e.state.length = n →
      (∀ i, i < n → p.e.state.getD i 0 = sFlag (z0 i) (p.e.flags.getD i 0)) →
      (∀ c ∈ l, ∀ i, i < n →
        Keeps (p.e.flags.getD i 0) (z0 i) ((r.zeroFunctions p.q c.2 c.1).getD i 0)) →
      ∃ p', Chain r p l p' := by
  induction l with
  | nil => intro p _ _ _ _ _ _ _; exact ⟨p, rfl⟩
  | cons c l ih =>
    intro p h1 h2 h3 h4 h5 h6 h7
    obtain ⟨x2, t2⟩ := c
    obtain ⟨e', g1, g2, g3, g4, g5, g6⟩ := C43_step r n p.q { p.e with t1 := p.t } p.x x2 t2 h2 h3
      h4 h5 (hlen _ _ _) (by
        intro i hi
        simp only
        rw [h6 i hi]
        exact (h7 (x2, t2) (by simp) i hi).not_crosses)
    obtain ⟨p', hp'⟩ := ih ⟨e', p.q, x2, t2⟩ (by simp only; rw [g2]; exact h1) g3
      (by simp only; rw [g4]; exact hlen _ _ _) (by simp only; rw [g5]; exact h4)
      (by simp only; rw [g6]; exact h5) (by
        intro i hi; simp only; rw [g5, g6]; exact h6 i hi) (by
        intro c hc i hi; simp only; rw [g5]; exact h7 c (by simp [hc]) i hi)
    exact ⟨p', ⟨e', p.q, x2, t2⟩, ⟨_, atStepStart_dirty r p.q p.e p.x p.t h1, g1⟩, rfl, rfl, rfl,
      hp'⟩

/-- C43 for a whole run. From a started (clean) controller, and for any sequence of proposed
steps such that no event function has, at any of their ends, changed sign in a watched direction
with respect to the start: no step is cut or changed and no fault happens. Missing with respect
to C43: functions that start beyond their side (`Keeps` excludes them), see `C43_false`. -/
theorem C43_partial (r : EvRhs K V Q) (n : Nat)
    (hlen : ∀ q t x, (r.zeroFunctions q t x).length = n) (p : Pt K V Q) (hc : p.e.clean = true)
    (hpos : 0 < n) (hcount : r.zeroFuncCount p.q = n) (hflags : (r.zeroFuncFlags p.q).length = n)
    (l : List (V × K))
    (hk : ∀ c ∈ l, ∀ i, i < n → Keeps ((r.zeroFuncFlags p.q).getD i 0)
      ((r.zeroFunctions p.q p.t p.x).getD i 0) ((r.zeroFunctions p.q c.2 c.1).getD i 0)) :
    ∃ p', Chain r p l p' := by
  cases l with
  | nil => exact ⟨p, rfl⟩
  | cons c l =>
    obtain ⟨x2, t2⟩ := c
    obtain ⟨e1, a1, a2, a3, a4, a5, a6, a7, a8, a9⟩ := atStepStart_clean r p.q p.e p.x p.t hc hpos
      hcount hflags (hlen _ _ _)
    obtain ⟨e', g1, g2, g3, g4, g5, g6⟩ := C43_step r n p.q e1 p.x x2 t2 a3
      (by rw [a4]; exact hlen _ _ _) (by rw [a5]; exact hflags) a6 (hlen _ _ _) (by
        intro i hi
        rw [a9 i hi, a5]
        exact (hk (x2, t2) (by simp) i hi).not_crosses)
    obtain ⟨p', hp'⟩ := chain_dirty r n (fun i => (r.zeroFunctions p.q p.t p.x).getD i 0) hlen l
      ⟨e', p.q, x2, t2⟩ (by simp only; rw [g2]; exact a2) g3
      (by simp only; rw [g4]; exact hlen _ _ _) (by simp only; rw [g5, a5]; exact hflags)
      (by simp only; rw [g6]; exact a6) (by
        intro i hi; simp only; rw [g5, g6, a5]; exact a9 i hi) (by
        intro c hc i hi; simp only; rw [g5, a5]; exact hk c (by simp [hc]) i hi)
    exact ⟨p', ⟨e', p.q, x2, t2⟩, ⟨e1, a1, g1⟩, rfl, rfl, rfl, hp'⟩

end

/-! ### Where C42 and C43 fail -/

/-- One event function, the state itself, with the given flags; a switch changes nothing. -/
def line (flags : Nat) : EvRhs ℚ ℚ Unit where
  zeroFuncCount _ := 1
  zeroFuncFlags _ := [flags]
  zeroFunctions _ _ x := [x]
  switchPhaseState _ _ _ x := ((), x)
  truncateStep _ t x := (false, t, x)

/-- Result of a step of size 1 from time 0 and state `a` to state `b` with a new controller: time
and state, or the fault. -/
def tryStep (flags : Nat) (a b : ℚ) : Res (ℚ × ℚ × Bool) := do
  let e ← (Ctl.init : Ctl ℚ).atStepStart (line flags) () a 0
  let r ← e.atStepEnd (line flags) () a b 1
  .ok (r.2.2.1, r.2.1, r.2.2.2.truncated)

/-- C42 fails: a function watched for going down that starts below zero and goes further down
takes time back before the beginning of the step. -/
theorem C42_time_false : tryStep 1 (-1) (-2) = .ok (-1, 0, true) := by decide +kernel

/-- C42 fails: a step that ends exactly at a zero of the event function throws. -/
theorem C42_landing_false : tryStep 1 1 0 = .error (.exc "out_of_range") ∧
    tryStep 2 (-1) 0 = .error (.exc "out_of_range") ∧
    tryStep 3 1 0 = .error (.exc "out_of_range") := by decide +kernel

/-- C43 fails: a function watched for going down that starts below zero is reported although its
sign does not change; if it grows the step throws, if it stays it divides zero by zero. -/
theorem C43_false : tryStep 1 (-1) (-2) = .ok (-1, 0, true) ∧
    tryStep 1 (-2) (-1) = .error (.exc "out_of_range") ∧
    tryStep 1 (-1) (-1) = .error .divZero := by decide +kernel

/-- A case of C42: the function goes from 1 to -3; the step is cut at time 1/4. -/
example : tryStep 1 1 (-3) = .ok (1/4, 0, true) := by decide +kernel

/-- Hypotheses of C42 and C43 are met. -/
example : StartOk (line 1) 1 () 1 0 ∧ (∀ q t x, ((line 1).zeroFunctions q t x).length = 1) ∧
    Reach (line 1) 1 ⟨Ctl.init, (), 1, 0⟩ ∧ Keeps (K := ℚ) 1 1 2 := by
  have h : StartOk (line 1) 1 () 1 0 := ⟨by decide, rfl, rfl, by
    intro i hi
    have : i = 0 := by omega
    subst this
    decide +kernel⟩
  refine ⟨h, fun _ _ _ => rfl, .start _ rfl h, ?_⟩
  unfold Keeps
  norm_num

section
variable {K V Q : Type} [Field K] [LinearOrder K] [AddCommGroup V] [Module K V]

/-- C43. A right-hand side without event functions and without its own truncation of steps never
has a step truncated: attached to a solver from its construction, the controller changes nothing,
so everything proved for solvers without events (`C28_history`, `C30_quiet`) holds. -/
theorem C43_no_functions (r : EvRhs K V Q) (q : Q) (h0 : r.zeroFuncCount q = 0)
    (ht : ∀ t x, r.truncateStep q t x = (false, t, x)) :
    Quiet (some (controller r)) (fun e => e.1.haveZf = false ∧ e.2 = q) ∧
      (Ctl.init : Ctl K).haveZf = false := by
  refine ⟨⟨?_, ?_, ?_⟩, rfl⟩
  · rintro c hc ⟨e, q'⟩ ⟨h1, h2⟩ x t
    cases hc
    have h1 : e.haveZf = false := h1
    have h2 : q' = q := h2
    subst h2
    by_cases hcl : e.clean = true
    · refine ⟨(({ e with t1 := t } : Ctl K).initClean r q', q'), ?_, ?_, rfl⟩
      · simp [controller, Ctl.atStepStart, hcl, Ctl.initClean, h0]
      · simp [Ctl.initClean, h0]
    · refine ⟨({ e with t1 := t }, q'), ?_, h1, rfl⟩
      simp [controller, Ctl.atStepStart, hcl]
  · rintro c hc ⟨e, q'⟩ ⟨h1, h2⟩ x1 x2 t2
    cases hc
    have h1 : e.haveZf = false := h1
    have h2 : q' = q := h2
    subst h2
    refine ⟨(e, q'), ?_, h1, rfl⟩
    simp [controller, Ctl.atStepEnd, h1, ht, Trunc.none]
  · rintro c hc ⟨e, q'⟩ ⟨h1, h2⟩
    cases hc
    exact ⟨h1, h2⟩

end

/-- A right-hand side without event functions. -/
example : Quiet (some (controller (⟨fun _ => 0, fun _ => [], fun _ _ _ => [],
    fun q _ _ x => (q, x), fun _ t x => (false, t, x)⟩ : EvRhs ℚ ℚ Unit)))
    (fun e => e.1.haveZf = false ∧ e.2 = ()) :=
  (C43_no_functions _ () rfl (fun _ _ => rfl)).1

end Verif.Event
