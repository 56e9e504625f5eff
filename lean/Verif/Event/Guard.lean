import Verif.Event.Watch
import Verif.Event.HybridModel

/-! # The event controller from event to event, for C135 -/

set_option linter.unusedSectionVars false

namespace Verif.Event

open Verif.Res Verif.RK

section
variable {K V Q : Type} [Field K] [LinearOrder K] [IsStrictOrderedRing K]
  [AddCommGroup V] [Module K V]

/-- The sides from which a function with these flags can be watched -/
def Allowed (f : Nat) (σ : Int) : Prop :=
  (f &&& 3 = 1 ∧ σ = 1) ∨ (f &&& 3 = 2 ∧ σ = -1) ∨ (f &&& 3 = 3 ∧ (σ = 1 ∨ σ = -1))

/-- With the remembered sign `st` the function is watched from the side `σ`. -/
def Guard (f : Nat) (st σ : Int) : Prop :=
  (f &&& 3 = 1 ∧ σ = 1 ∧ (st = 0 ∨ st = 1)) ∨ (f &&& 3 = 2 ∧ σ = -1 ∧ (st = 0 ∨ st = -1)) ∨
  (f &&& 3 = 3 ∧ ((σ = 1 ∧ st = 1) ∨ (σ = -1 ∧ st = -1)))

theorem Guard.quiet {f : Nat} {st σ : Int} {z : K} (h : Guard f st σ) (hz : 0 < (σ : K) * z) : ¬ Crosses f st z := by
  rcases h with ⟨hf, rfl, hs⟩ | ⟨hf, rfl, hs⟩ | ⟨hf, ⟨rfl, rfl⟩ | ⟨rfl, rfl⟩⟩ <;> simp at hz <;>
    rintro (⟨h1, h2⟩ | ⟨h1, h2⟩ | ⟨h1, h2⟩) <;> try omega
  · rcases h2 with h2 | h2 <;> linarith [h2.2]
  · rcases h2 with h2 | h2 <;> linarith [h2.2]
  · exact h2 (.inr (.inr ⟨hz, rfl⟩))
  · exact h2 (.inl ⟨hz, rfl⟩)

theorem Guard.cross {f : Nat} {st σ : Int} {z : K} (h : Guard f st σ) (hz : (σ : K) * z < 0) : Crosses f st z := by
  rcases h with ⟨hf, rfl, hs⟩ | ⟨hf, rfl, hs⟩ | ⟨hf, ⟨rfl, rfl⟩ | ⟨rfl, rfl⟩⟩ <;> simp at hz
  · refine .inl ⟨hf, ?_⟩
    rcases hs with rfl | rfl
    · exact .inr ⟨rfl, hz⟩
    · exact .inl ⟨rfl, hz.le⟩
  · refine .inr (.inl ⟨hf, ?_⟩)
    rcases hs with rfl | rfl
    · exact .inr ⟨rfl, hz⟩
    · exact .inl ⟨rfl, hz.le⟩
  · refine .inr (.inr ⟨hf, ?_⟩)
    rintro (⟨h1, h2⟩ | ⟨h1, h2⟩ | ⟨h1, h2⟩)
    · omega
    · omega
    · linarith
  · refine .inr (.inr ⟨hf, ?_⟩)
    rintro (⟨h1, h2⟩ | ⟨h1, h2⟩ | ⟨h1, h2⟩)
    · linarith
    · omega
    · omega

theorem Guard.sgn_eq {f : Nat} {st σ : Int} {z : K} (h : Guard f st σ) (hz : (σ : K) * z < 0) : sgn z = -σ := by
  have hσ : σ = 1 ∨ σ = -1 := by
    rcases h with ⟨-, h, -⟩ | ⟨-, h, -⟩ | ⟨-, ⟨h, -⟩ | ⟨h, -⟩⟩
    · exact .inl h
    · exact .inr h
    · exact .inl h
    · exact .inr h
  unfold sgn
  rcases hσ with rfl | rfl <;> simp at hz
  · rw [if_pos hz]
  · rw [if_neg (not_lt.2 hz.le), if_pos hz]
    rfl

theorem Guard.side {f : Nat} {st σ : Int} {z : K} (h : Guard f st σ) (hz : 0 ≤ (σ : K) * z) : Side f st z := by
  rcases h with ⟨hf, rfl, hs⟩ | ⟨hf, rfl, hs⟩ | ⟨hf, ⟨rfl, rfl⟩ | ⟨rfl, rfl⟩⟩ <;> simp at hz
  · exact .inl ⟨hf, hz, hs⟩
  · exact .inr (.inl ⟨hf, hz, hs⟩)
  · exact .inr (.inr ⟨hf, .inl ⟨rfl, hz⟩⟩)
  · exact .inr (.inr ⟨hf, .inr (.inl ⟨rfl, hz⟩)⟩)

theorem guard_sFlag {f : Nat} {σ : Int} {z : K} (h : Allowed f σ) (hz : 0 < (σ : K) * z) : Guard f (sFlag z f) σ := by
  unfold sFlag sgn
  rcases h with ⟨hf, rfl⟩ | ⟨hf, rfl⟩ | ⟨hf, rfl | rfl⟩ <;> simp at hz
  · exact .inl ⟨hf, rfl, .inr (by rw [if_pos hf, if_neg (not_le.2 hz)])⟩
  · exact .inr (.inl ⟨hf, rfl, .inr (by rw [if_neg (by omega), if_pos hf, if_neg (not_le.2 hz)])⟩)
  · exact .inr (.inr ⟨hf, .inl ⟨rfl, by
      rw [if_neg (by omega), if_neg (by omega), if_pos hf, if_neg (not_lt.2 hz.le), if_pos hz]⟩⟩)
  · exact .inr (.inr ⟨hf, .inr ⟨rfl, by
      rw [if_neg (by omega), if_neg (by omega), if_pos hf, if_pos hz]⟩⟩)

/-- When a step begins the controller remembers the signs `S`. -/
def Begins (r : EvRhs K V Q) (n : Nat) (fl : List Nat) (S : Nat → Int) (e : Ctl K) (q : Q) (t : K) (x : V) (Z : List K → Prop) : Prop :=
  ∃ e1, e.atStepStart r q x t = .ok e1 ∧ e1.t1 = t ∧ Armed e1 n ∧ e1.flags = fl ∧ (∀ j, j < n → e1.state.getD j 0 = S j) ∧ Z e1.zf1

variable {r : EvRhs K V Q} {n : Nat} {fl : List Nat} {S σ : Nat → Int} {q : Q} {e : Ctl K}

/-- The state of the controller between steps that follow each other -/
structure Remembers (n : Nat) (fl : List Nat) (S : Nat → Int) (e : Ctl K) : Prop where
  armed : Armed e n
  flags : e.flags = fl
  state : ∀ j, j < n → e.state.getD j 0 = S j

theorem Remembers.begins (h : Remembers n fl S e) {t : K} {x : V} {Z : List K → Prop} (hZ : Z e.zf1) : Begins r n fl S e q t x Z :=
  ⟨{ e with t1 := t }, atStepStart_dirty r q e x t h.armed.clean, rfl,
    ⟨h.armed.clean, h.armed.haveZf, h.armed.pos, h.armed.zf1, h.armed.flags, h.armed.state, h.armed.haveRec,
      h.armed.side⟩, h.flags, h.state, hZ⟩

theorem begins_clean (hlen : ∀ q t x, (r.zeroFunctions q t x).length = n) (hn : 0 < n) (hcount : r.zeroFuncCount q = n)
    (hflq : r.zeroFuncFlags q = fl) (hfl : fl.length = n) {t : K} {x : V} (hc : e.clean = true)
    (ha : ∀ j, j < n → Allowed (fl.getD j 0) (σ j)) (hp : ∀ j, j < n → 0 < (σ j : K) * (r.zeroFunctions q t x).getD j 0) :
    Begins r n fl (fun j => sFlag ((r.zeroFunctions q t x).getD j 0) (fl.getD j 0)) e q t x (fun _ => True) := by
  subst hflq
  obtain ⟨e1, a1, -, -, a4, a5, -, -, a8, a9⟩ := atStepStart_clean r q e x t hc hn hcount hfl (hlen _ _ _)
  obtain ⟨e2, b1, b2, b3⟩ := atStepStart_armed r hlen q e x t (.inl ⟨hc, hn, hcount, hfl, fun i hi => by
    have hp := hp i hi
    rcases ha i hi with ⟨h1, h2⟩ | ⟨h1, h2⟩ | ⟨h1, h2⟩
    · rw [h2] at hp
      simp only [Int.cast_one, one_mul] at hp
      exact ⟨by omega, fun _ => hp.le, fun h => by omega⟩
    · rw [h2] at hp
      simp only [Int.cast_neg, Int.cast_one, neg_mul, one_mul] at hp
      exact ⟨by omega, fun h => by omega, fun _ => by linarith⟩
    · exact ⟨by omega, fun h => by omega, fun h => by omega⟩⟩)
  rw [a1] at b1
  cases b1
  exact ⟨e1, a1, a8, b2, a5, a9, trivial⟩

/-- No function crosses: the step is not touched. -/
theorem Begins.quiet (hlen : ∀ q t x, (r.zeroFunctions q t x).length = n) {t t2 : K} {x x2 : V} {Z : List K → Prop}
    (h : Begins r n fl S e q t x Z)
    (hno : ∀ j, j < n → ¬ Crosses (fl.getD j 0) (S j) ((r.zeroFunctions q t2 x2).getD j 0)) :
    ∃ e1 e', e.atStepStart r q x t = .ok e1 ∧ e1.atStepEnd r q x x2 t2 = .ok ((e', q), x2, t2, Trunc.none) ∧
      Remembers n fl S e' ∧ e'.zf1 = r.zeroFunctions q t2 x2 := by
  obtain ⟨e1, a1, a2, a3, a4, a5, -⟩ := h
  have ho := C42_partial r n hlen q e1 a3 x x2 t2
  have hno' : ∀ j, j < n → ¬ Crosses (e1.flags.getD j 0) (e1.state.getD j 0) ((r.zeroFunctions q t2 x2).getD j 0) := fun j hj => by
    rw [a4, a5 j hj]; exact hno j hj
  generalize hres : e1.atStepEnd r q x x2 t2 = res at ho
  cases ho with
  | quiet e' h1 h2 h3 h4 h5 =>
    exact ⟨e1, e', a1, hres, ⟨h2, h4.trans a4, fun j hj => by rw [h5]; exact a5 j hj⟩, h3⟩
  | event e' i τ q' y h1 h2 => exact absurd h2 (hno' i h1)
  | zeroByZero i h1 h2 => exact absurd h2 (hno' i h1)
  | landing i h1 h2 => exact absurd h2 (hno' i h1)

/-- The sides from which the functions are watched after an event of function `i`: a function to be recomputed can be watched
from any side on which it is then; of the others, function `i` is watched from its other side if it is watched from both, and
again from the same side if not; and the rest as before. -/
def NextSides (n : Nat) (fl : List Nat) (i : Nat) (σ σ' : Nat → Int) (z : Nat → K) : Prop :=
  ∀ j, j < n → (fl.getD j 0 &&& 4 ≠ 0 → Allowed (fl.getD j 0) (σ' j) ∧ 0 < (σ' j : K) * z j) ∧
    (fl.getD j 0 &&& 4 = 0 → σ' j = if j = i ∧ fl.getD j 0 &&& 3 = 3 then -σ j else σ j)

/-- One function crosses: the step is cut where the linear interpolant of this function is zero. -/
theorem Begins.cut (hlen : ∀ q t x, (r.zeroFunctions q t x).length = n) {t t2 : K} {x x2 : V}
    (h : Begins r n fl S e q t x (· = r.zeroFunctions q t x)) (hG : ∀ j, j < n → Guard (fl.getD j 0) (S j) (σ j))
    {i : Nat} (hi : i < n) (hno : ∀ j, j < n → j ≠ i → ¬ Crosses (fl.getD j 0) (S j) ((r.zeroFunctions q t2 x2).getD j 0))
    (h1 : ¬ Crosses (fl.getD i 0) (S i) ((r.zeroFunctions q t x).getD i 0))
    (h2 : Crosses (fl.getD i 0) (S i) ((r.zeroFunctions q t2 x2).getD i 0)) :
    ∃ e1, e.atStepStart r q x t = .ok e1 ∧
    ((∃ (e' : Ctl K) (θ : K) (q' : Q) (x' : V), 0 ≤ θ ∧ θ ≤ 1 ∧
      (1 - θ) * (r.zeroFunctions q t x).getD i 0 + θ * (r.zeroFunctions q t2 x2).getD i 0 = 0 ∧
      r.switchPhaseState q ((List.replicate n 0).set i (-σ i)) (t + θ * (t2 - t)) ((1 - θ) • x + θ • x2) = (q', x') ∧
      e1.atStepEnd r q x x2 t2 = .ok ((e', q'), x', t + θ * (t2 - t), ⟨true, some i, -σ i⟩) ∧
      ∀ σ', NextSides n fl i σ σ' (fun j => (r.zeroFunctions q' (t + θ * (t2 - t)) x').getD j 0) →
        ∃ S', (∀ j, j < n → Guard (fl.getD j 0) (S' j) (σ' j)) ∧ Remembers n fl S' e') ∨
    ((r.zeroFunctions q t2 x2).getD i 0 = 0 ∧ e1.atStepEnd r q x x2 t2 = .error (.exc "out_of_range"))) := by
  obtain ⟨e1, a1, a2, a3, a4, a5, a6⟩ := h
  refine ⟨e1, a1, ?_⟩
  have ho := C42_partial r n hlen q e1 a3 x x2 t2
  have only : ∀ j, j < n → Crosses (e1.flags.getD j 0) (e1.state.getD j 0) ((r.zeroFunctions q t2 x2).getD j 0) → j = i := by
    intro j hj hc
    rw [a4, a5 j hj] at hc
    by_contra hne
    exact hno j hj hne hc
  generalize hres : e1.atStepEnd r q x x2 t2 = res at ho
  cases ho with
  | quiet e' b1 b2 b3 b4 b5 =>
    exact absurd (by rw [a4, a5 i hi]; exact h2) (b1 i hi)
  | event e' j τ q' y b1 b2 b3 b4 b5 b6 b7 b8 b9 b10 b11 b12 b13 =>
    left
    obtain rfl := only j b1 b2
    rw [a2] at b7 b8 b12 ⊢
    rw [a6] at b5
    have hneg : (σ j : K) * (r.zeroFunctions q t2 x2).getD j 0 < 0 := by
      rcases lt_trichotomy ((σ j : K) * (r.zeroFunctions q t2 x2).getD j 0) 0 with h | h | h
      · exact h
      · exfalso
        have hσ : (σ j : K) ≠ 0 := by
          rcases hG j hi with ⟨-, h, -⟩ | ⟨-, h, -⟩ | ⟨-, ⟨h, -⟩ | ⟨h, -⟩⟩ <;> rw [h] <;> simp
        have hz2 := (mul_eq_zero.1 h).resolve_left hσ
        rw [hz2, mul_zero, add_zero] at b5
        have hz1 := (mul_eq_zero.1 b5).resolve_left (by linarith)
        rw [hz2] at h2
        rw [hz1] at h1
        exact h1 h2
      · exact absurd h2 ((hG j hi).quiet h)
    have hs := (hG j hi).sgn_eq hneg
    simp only [hs] at b7 b13 ⊢
    refine ⟨e', τ, q', y, b3, b4.le, b5, b7, rfl, fun σ' hN => ?_⟩
    rw [a4] at b8 b9 b10 b12 b13
    have hrec : RecomputedOk r fl n q' (t + τ * (t2 - t)) y := by
      intro l hl hf
      obtain ⟨c1, c2⟩ := (hN l hl).1 hf
      rcases c1 with ⟨d1, d2⟩ | ⟨d1, d2⟩ | ⟨d1, d2⟩
      · rw [d2] at c2
        simp only [Int.cast_one, one_mul] at c2
        exact ⟨fun _ => c2.le, fun h => by omega⟩
      · rw [d2] at c2
        simp only [Int.cast_neg, Int.cast_one, neg_mul, one_mul] at c2
        exact ⟨fun h => by omega, fun _ => by linarith⟩
      · exact ⟨fun h => by omega, fun h => by omega⟩
    refine ⟨fun l => e'.state.getD l 0, fun l hl => ?_, b8 hrec, b9, fun l hl => rfl⟩
    by_cases hf : fl.getD l 0 &&& 4 = 0
    · have hσ' := (hN l hl).2 hf
      have hst := b13 l hl hf
      simp only [hst, hσ']
      by_cases hlj : l = j
      · subst hlj
        simp only [if_true, true_and]
        rcases hG l hl with ⟨g1, g2, g3⟩ | ⟨g1, g2, g3⟩ | ⟨g1, g2⟩
        · rw [if_neg (by omega), if_neg (by omega)]
          exact .inl ⟨g1, g2, .inl rfl⟩
        · rw [if_neg (by omega), if_neg (by omega)]
          exact .inr (.inl ⟨g1, g2, .inl rfl⟩)
        · rw [if_pos g1, if_pos g1]
          refine .inr (.inr ⟨g1, ?_⟩)
          rcases g2 with ⟨g2, -⟩ | ⟨g2, -⟩ <;> rw [g2] <;> simp
      · rw [if_neg hlj, if_neg (fun h => hlj h.1), a5 l hl]
        exact hG l hl
    · obtain ⟨c1, c2⟩ := (hN l hl).1 hf
      obtain ⟨c3, c4⟩ := b12 l hl hf
      simp only [c4, c3]
      exact guard_sFlag c1 c2
  | zeroByZero j b1 b2 b3 b4 =>
    obtain rfl := only j b1 b2
    rw [a6] at b3
    rw [b4] at h2
    rw [b3] at h1
    exact absurd h2 h1
  | landing j b1 b2 b3 =>
    obtain rfl := only j b1 b2
    exact .inr ⟨(b3 j b1 b2).1, rfl⟩

/-! ### Runs of the fixed-step solver in one phase -/

variable {T : Tableau K} {co : Coefficients K} {F : Q → K → V → V}

/-- Steps in which no function crosses -/
theorem phase_quiet (hT1 : 1 ≤ T.s) (hT0 : T.c 0 = 0) (hTm : co = T.pack 1 (-1))
    (hlen : ∀ q t x, (r.zeroFunctions q t x).length = n) {g : Nat → K × V → K}
    (hg : ∀ j z, g j z = (r.zeroFunctions q z.1 z.2).getD j 0) {s : FixedSt K V (Ctl K × Q)} {h : K} (hR : Ready T h s)
    (hq : s.ec.2 = q) (hB : Begins r n fl S s.ec.1 q s.t s.x (fun _ => True)) {xs : Nat → V} (hx0 : xs 0 = s.x)
    (hxs : ∀ k : Nat, xs (k + 1) = T.output (F q) (s.t + k * h) h (xs k) 0) (k : Nat)
    (hno : ∀ l : Nat, 0 < l → l ≤ k → ∀ j < n, ¬ Crosses (fl.getD j 0) (S j) (g j (s.t + l * h, xs l))) :
    ∃ st : Nat → FixedSt K V (Ctl K × Q), st 0 = s ∧ (∀ l < k, phaseStep co F r (st l) = .ok (st (l + 1))) ∧
      (∀ l ≤ k, (st l).t = s.t + l * h ∧ (st l).x = xs l ∧ (st l).ec.2 = q) ∧ Ready T h (st k) ∧
      Begins r n fl S (st k).ec.1 q (st k).t (st k).x (fun z => 0 < k → z = r.zeroFunctions q (st k).t (st k).x) := by
  induction k with
  | zero =>
    refine ⟨fun _ => s, rfl, fun l hl => by omega, fun l hl => ?_, hR, ?_⟩
    · obtain rfl : l = 0 := by omega
      exact ⟨by simp, hx0.symm, hq⟩
    · obtain ⟨e1, c1, c2, c3, c4, c5, -⟩ := hB
      exact ⟨e1, c1, c2, c3, c4, c5, fun h => by omega⟩
  | succ k ih =>
    obtain ⟨st, b0, b1, b2, b3, b4⟩ := ih (fun l h1 h2 => hno l h1 (by omega))
    obtain ⟨c1, c2, c3⟩ := b2 k le_rfl
    have et : (st k).t + h = s.t + (k + 1 : Nat) * h := by rw [c1]; push_cast; ring
    obtain ⟨e1, e', d1, d2, d3, d4⟩ := b4.quiet (t2 := s.t + (k + 1 : Nat) * h) (x2 := xs (k + 1)) hlen (fun j hj => by
      have := hno (k + 1) (by omega) le_rfl j hj
      rwa [hg] at this)
    have hst : ecStart (⟨co, F (st k).ec.2, some (controller r)⟩ : Method K V (Ctl K × Q)) (st k).ec (st k).x (st k).t
        = .ok (e1, q) := by
      unfold ecStart
      simp only [controller, c3, d1, bind_ok]
    obtain ⟨mk, f1, f2⟩ := doStep_ec (m := ⟨co, F (st k).ec.2, some (controller r)⟩) hT1 hT0 hTm b3 hst
    have ex : T.output (F (st k).ec.2) (st k).t h (st k).x 0 = xs (k + 1) := by rw [c1, c2, c3, hxs]
    simp only [ex, et] at f2
    have hend : ecEnd (⟨co, F (st k).ec.2, some (controller r)⟩ : Method K V (Ctl K × Q)) (e1, q) (st k).x (xs (k + 1))
        (s.t + (k + 1 : Nat) * h) = .ok ((e', q), xs (k + 1), s.t + (k + 1 : Nat) * h, Trunc.none) := d2
    rw [hend] at f2
    simp only [Except.bind] at f2
    obtain ⟨k1, k2, k3, k4⟩ := f1 ((e', q), xs (k + 1), s.t + (k + 1 : Nat) * h, Trunc.none)
    refine ⟨fun l => if l ≤ k then st l else mk ((e', q), xs (k + 1), s.t + (k + 1 : Nat) * h, Trunc.none), by simp [b0],
      fun l hl => ?_, fun l hl => ?_, ?_, ?_⟩
    · by_cases hlk : l = k
      · subst hlk
        simp only [le_refl, if_true, show ¬ (l + 1 ≤ l) by omega, if_false]
        exact f2
      · simp only [show l ≤ k by omega, show l + 1 ≤ k by omega, if_true]
        exact b1 l (by omega)
    · by_cases hlk : l ≤ k
      · simp only [hlk, if_true]; exact b2 l hlk
      · obtain rfl : l = k + 1 := by omega
        simp only [hlk, if_false]
        exact ⟨k3, k2, by rw [k1]⟩
    · simp only [show ¬ (k + 1 ≤ k) by omega, if_false]
      exact k4
    · simp only [show ¬ (k + 1 ≤ k) by omega, if_false]
      rw [k1, k2, k3]
      exact d3.begins (fun _ => d4)

/-- A step in which one function crosses, after at least one in which none does -/
theorem phase_cut (hT1 : 1 ≤ T.s) (hT0 : T.c 0 = 0) (hTm : co = T.pack 1 (-1))
    (hlen : ∀ q t x, (r.zeroFunctions q t x).length = n) {g : Nat → K × V → K}
    (hg : ∀ j z, g j z = (r.zeroFunctions q z.1 z.2).getD j 0) {s : FixedSt K V (Ctl K × Q)} {h : K} (hR : Ready T h s)
    (hq : s.ec.2 = q) (hB : Begins r n fl S s.ec.1 q s.t s.x (fun _ => True)) {xs : Nat → V} (hx0 : xs 0 = s.x)
    (hxs : ∀ k : Nat, xs (k + 1) = T.output (F q) (s.t + k * h) h (xs k) 0) (hG : ∀ j, j < n → Guard (fl.getD j 0) (S j) (σ j))
    {i : Nat} (hi : i < n) (k : Nat) (hk : 0 < k)
    (hno : ∀ l : Nat, 0 < l → l ≤ k → ∀ j < n, ¬ Crosses (fl.getD j 0) (S j) (g j (s.t + l * h, xs l)))
    (hoth : ∀ j < n, j ≠ i → ¬ Crosses (fl.getD j 0) (S j) (g j (s.t + (k + 1 : Nat) * h, xs (k + 1))))
    (hx : Crosses (fl.getD i 0) (S i) (g i (s.t + (k + 1 : Nat) * h, xs (k + 1)))) :
    ∃ st : Nat → FixedSt K V (Ctl K × Q), st 0 = s ∧ (∀ l < k, phaseStep co F r (st l) = .ok (st (l + 1))) ∧
      (∀ l ≤ k, (st l).t = s.t + l * h ∧ (st l).x = xs l ∧ (st l).ec.2 = q) ∧
      ((∃ θ q' s', 0 ≤ θ ∧ θ ≤ 1 ∧ (1 - θ) * g i (s.t + k * h, xs k) + θ * g i (s.t + (k + 1 : Nat) * h, xs (k + 1)) = 0 ∧
        r.switchPhaseState q ((List.replicate n 0).set i (-σ i)) (s.t + k * h + θ * h) ((1 - θ) • xs k + θ • xs (k + 1)) = (q', s'.x) ∧
        phaseStep co F r (st k) = .ok s' ∧ s'.t = s.t + k * h + θ * h ∧ s'.ec.2 = q' ∧ Ready T h s' ∧
        ∀ σ', NextSides n fl i σ σ' (fun j => (r.zeroFunctions q' s'.t s'.x).getD j 0) →
          ∃ S', (∀ j, j < n → Guard (fl.getD j 0) (S' j) (σ' j)) ∧ Remembers n fl S' s'.ec.1) ∨
      (g i (s.t + (k + 1 : Nat) * h, xs (k + 1)) = 0 ∧ phaseStep co F r (st k) = .error (.exc "out_of_range") ∧
        ∃ s', (st k).doStep ⟨co, F q, none⟩ = .ok s' ∧ s'.t = s.t + (k + 1 : Nat) * h ∧ s'.x = xs (k + 1))) := by
  obtain ⟨st, b0, b1, b2, b3, b4⟩ := phase_quiet hT1 hT0 hTm hlen hg hR hq hB hx0 hxs k hno
  obtain ⟨c1, c2, c3⟩ := b2 k le_rfl
  refine ⟨st, b0, b1, b2, ?_⟩
  have et : (st k).t + h = s.t + (k + 1 : Nat) * h := by rw [c1]; push_cast; ring
  have hstep : (s.t + (k + 1 : Nat) * h : K) - (s.t + k * h) = h := by push_cast; ring
  have hgz : ∀ j t x, (r.zeroFunctions q t x).getD j 0 = g j (t, x) := fun j t x => (hg j (t, x)).symm
  have b4' : Begins r n fl S (st k).ec.1 q (st k).t (st k).x (· = r.zeroFunctions q (st k).t (st k).x) := by
    obtain ⟨e1, d1, d2, d3, d4, d5, d6⟩ := b4
    exact ⟨e1, d1, d2, d3, d4, d5, d6 hk⟩
  obtain ⟨e1, d1, res⟩ := b4'.cut (t2 := s.t + (k + 1 : Nat) * h) (x2 := xs (k + 1)) (σ := σ) hlen hG hi
    (fun j hj hji => by rw [hgz]; exact hoth j hj hji) (by rw [hgz, c1, c2]; exact hno k hk le_rfl i hi) (by rw [hgz]; exact hx)
  have hst : ecStart (⟨co, F (st k).ec.2, some (controller r)⟩ : Method K V (Ctl K × Q)) (st k).ec (st k).x (st k).t
      = .ok (e1, q) := by
    unfold ecStart
    simp only [controller, c3, d1, bind_ok]
  obtain ⟨mk, f1, f2⟩ := doStep_ec (m := ⟨co, F (st k).ec.2, some (controller r)⟩) hT1 hT0 hTm b3 hst
  have ex : T.output (F (st k).ec.2) (st k).t h (st k).x 0 = xs (k + 1) := by rw [c1, c2, c3, hxs]
  simp only [ex, et] at f2
  have hend : ecEnd (⟨co, F (st k).ec.2, some (controller r)⟩ : Method K V (Ctl K × Q)) (e1, q) (st k).x (xs (k + 1))
      (s.t + (k + 1 : Nat) * h) = e1.atStepEnd r q (st k).x (xs (k + 1)) (s.t + (k + 1 : Nat) * h) := rfl
  rw [hend] at f2
  rcases res with ⟨e', θ, q', x', θ0, θ1, lin, sw, fin, nx⟩ | ⟨hz, fin⟩
  · left
    rw [fin] at f2
    simp only [Except.bind] at f2
    obtain ⟨k1, k2, k3, k4⟩ := f1 ((e', q'), x', (st k).t + θ * (s.t + (k + 1 : Nat) * h - (st k).t), ⟨true, some i, -σ i⟩)
    have hτ : (st k).t + θ * (s.t + (k + 1 : Nat) * h - (st k).t) = s.t + k * h + θ * h := by rw [c1, hstep]
    rw [hgz, hgz, c1, c2] at lin
    refine ⟨θ, q', mk _, θ0, θ1, lin, ?_, f2, ?_, ?_, k4, fun σ' hN => ?_⟩
    · rw [k2, ← hτ, ← c2]
      exact sw
    · rw [k3, ← hτ]
    · rw [k1]
    · obtain ⟨S', n1, n2⟩ := nx σ' (by rw [k2, k3] at hN; exact hN)
      exact ⟨S', n1, by rw [k1]; exact n2⟩
  · right
    rw [fin] at f2
    obtain ⟨mk', f1', f2'⟩ := doStep_ec (m := ⟨co, F q, none⟩) (e1 := (st k).ec) hT1 hT0 hTm b3 rfl
    change _ = (Except.ok ((st k).ec, T.output (F q) (st k).t h (st k).x 0, (st k).t + h, Trunc.none) : Res _).bind _ at f2'
    rw [et] at f2'
    have ex' : T.output (F q) (st k).t h (st k).x 0 = xs (k + 1) := by rw [c1, c2, hxs]
    rw [ex'] at f2'
    simp only [Except.bind] at f2'
    obtain ⟨k1, k2, k3, k4⟩ := f1' ((st k).ec, xs (k + 1), s.t + (k + 1 : Nat) * h, Trunc.none)
    exact ⟨by rw [← hgz]; exact hz, f2, _, f2', k3, k2⟩

end

end Verif.Event
